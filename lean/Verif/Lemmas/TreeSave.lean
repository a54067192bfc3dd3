/-
Helper lemmas for `Verif.Props.Tree`: saving and loading.
-/
import Verif.Lemmas.TreeAll

set_option autoImplicit false

namespace Verif.Tree

open Verif.Registry (Cls)

/-- Classes whose objects are written under the name under which they are looked up on loading.
A `FreeBoundFlippedSetup` is written as a `Setup` with one child less. -/
def NameKept : TCls → Prop
  | .model m => instName m = className m
  | .FreeBoundFlippedSetup => False
  | _ => True

instance (c : TCls) : Decidable (NameKept c) := by
  cases c <;> unfold NameKept <;> infer_instance

theorem loadAll_map {α : Type} {g : Grid α} {es : List (J α)} {ws : List (Val α)}
    (h : loadAll g es = some ws) : es.map (load g) = ws.map some := by
  induction es generalizing ws with
  | nil =>
    rw [loadAll] at h
    obtain rfl := Option.some.inj h
    rfl
  | cons e es ih =>
    rw [loadAll] at h
    cases h1 : load g e with
    | none => rw [h1] at h; cases h
    | some v =>
      cases h2 : loadAll g es with
      | none => simp [h1, h2] at h
      | some vs =>
        simp [h1, h2] at h
        subst h
        rw [List.map_cons, List.map_cons, ih h2, h1]

/-- Run `load` as far as the attributes. -/
macro "loading" h:ident : tactic => `(tactic|
  simp only [load, loadAll, packTree, childLabels, auxLabels, labelled,
    List.zip_cons_cons, List.zip_nil_left, List.zip_nil_right, List.reverse_cons,
    List.reverse_nil, List.nil_append, List.cons_append, List.map_cons, List.map_nil, $h:ident,
    Option.map_some])

theorem pack_load {α : Type} (g : Grid α) (c : TCls) (hc : NameKept c) (es : List (J α))
    (ws : List (Val α)) (hl : es.length = (ctorAttrs c).length)
    (hw : loadAll g es = some ws)
    (hgrid : ∀ e, look (ctorAttrs c) es "_transform_r" = some e →
      ∃ x, e = .atom (.val x) ∧ g.lin (g.lo x) (g.hi x) (g.num x) = x) :
    ∃ j, packObj g c (ctorAttrs c) es = some j ∧ load g j = some (.obj c (ctorAttrs c) ws) := by
  have hm := loadAll_map hw
  have hlw : ws.length = (ctorAttrs c).length := by
    rw [← hl, ← List.length_map (as := ws) (f := some), ← hm, List.length_map]
  clear hw
  rcases c with c | _ | _ | _ | _ | _ | _ | _ | _ <;> try cases c
  all_goals first
    | exact absurd hc (by decide)
    | skip
  all_goals
    explicit hl
    explicit hlw
    simp only [List.map_cons, List.map_nil, List.cons.injEq, and_true] at hm
  all_goals first
    | (refine ⟨_, rfl, ?_⟩
       loading hm
       rfl)
    | skip
  all_goals
    obtain ⟨x, hx, hlin⟩ := hgrid _ rfl
    subst hx
    simp only [load, Option.some.injEq] at hm
    rw [← hlin] at hm
    first
      | (obtain ⟨rfl, hm⟩ := hm
         refine ⟨_, rfl, ?_⟩
         loading hm
         rfl)
      | (obtain ⟨hm1, rfl, hm⟩ := hm
         replace hm := And.intro hm1 hm
         refine ⟨_, rfl, ?_⟩
         loading hm
         rfl)
      | (obtain ⟨hm1, hm2, rfl, hm⟩ := hm
         replace hm := And.intro hm1 (And.intro hm2 hm)
         refine ⟨_, rfl, ?_⟩
         loading hm
         rfl)

/-- The grid of a potential is evenly spaced: it is what `linspace` gives for its limits and its
length. -/
def EvenGrid {α : Type} (g : Grid α) (names : List String) (vs : List (Val α)) : Prop :=
  ∀ v, look names vs "_transform_r" = some v →
    ∃ x, v = .atom (.val x) ∧ g.lin (g.lo x) (g.hi x) (g.num x) = x

mutual

/-- A value made of constructed objects of classes whose name is kept, with evenly spaced grids
and without dictionaries that pretend to be objects. -/
def Savable {α : Type} (g : Grid α) : Val α → Prop
  | .none => True
  | .atom _ => True
  | .tuple vs => SavableAll g vs
  | .list vs => SavableAll g vs
  | .dict _ keys vs => keys.length = vs.length ∧ "_type" ∉ keys ∧ SavableAll g vs
  | .obj c names vs =>
      NameKept c ∧ names = ctorAttrs c ∧ vs.length = (ctorAttrs c).length ∧
        EvenGrid g names vs ∧ SavableAll g vs

/-- Each value of a list. -/
def SavableAll {α : Type} (g : Grid α) : List (Val α) → Prop
  | [] => True
  | v :: vs => Savable g v ∧ SavableAll g vs

end

mutual

/-- The value up to the two differences that JSON does not keep: tuples become lists and
`JittableDict` becomes `dict`. -/
def plain {α : Type} : Val α → Val α
  | .none => .none
  | .atom a => .atom a
  | .tuple vs => .list (plainAll vs)
  | .list vs => .list (plainAll vs)
  | .dict _ keys vs => .dict false keys (plainAll vs)
  | .obj c names vs => .obj c names (plainAll vs)

/-- Each value of a list. -/
def plainAll {α : Type} : List (Val α) → List (Val α)
  | [] => []
  | v :: vs => plain v :: plainAll vs

end

theorem dumpAll_length {α : Type} {g : Grid α} {vs : List (Val α)} {es : List (J α)}
    (h : dumpAll g vs = some es) : es.length = vs.length := by
  induction vs generalizing es with
  | nil =>
    rw [dumpAll] at h
    obtain rfl := Option.some.inj h
    rfl
  | cons v vs ih =>
    rw [dumpAll] at h
    cases h1 : dump g v with
    | none => simp [h1] at h
    | some j =>
      cases h2 : dumpAll g vs with
      | none => simp [h1, h2] at h
      | some js =>
        simp [h1, h2] at h
        subst h
        simp [ih h2]

/-- Looking up an attribute before and after encoding. -/
theorem look_dumpAll {α : Type} {g : Grid α} (names : List String) {vs : List (Val α)}
    {es : List (J α)} (h : dumpAll g vs = some es) (n : String) {e : J α}
    (he : look names es n = some e) : ∃ v, look names vs n = some v ∧ dump g v = some e := by
  unfold look at he ⊢
  induction names generalizing vs es with
  | nil => simp at he
  | cons m ms ih =>
    cases vs with
    | nil =>
      rw [dumpAll] at h
      obtain rfl := Option.some.inj h
      simp at he
    | cons v vs =>
      rw [dumpAll] at h
      cases h1 : dump g v with
      | none => simp [h1] at h
      | some j =>
        cases h2 : dumpAll g vs with
        | none => simp [h1, h2] at h
        | some js =>
          simp [h1, h2] at h
          subst h
          rw [List.zip_cons_cons, List.lookup_cons] at he ⊢
          split at he
          · obtain rfl := Option.some.inj he
            exact ⟨v, rfl, h1⟩
          · exact ih h2 he

theorem look_none {β : Type} (names : List String) (vs : List β) (n : String)
    (h : n ∉ names) : look names vs n = none := by
  unfold look
  induction names generalizing vs with
  | nil => rfl
  | cons m ms ih =>
    cases vs with
    | nil => rfl
    | cons v vs =>
      rw [List.zip_cons_cons, List.lookup_cons]
      have hne : n ≠ m := fun e => h (e ▸ List.mem_cons_self ..)
      rw [beq_eq_false_iff_ne.2 hne]
      exact ih vs fun hm => h (List.mem_cons_of_mem _ hm)

mutual

theorem load_dump {α : Type} (g : Grid α) :
    (v : Val α) → Savable g v → ∃ j, dump g v = some j ∧ load g j = some (plain v)
  | .none, _ => ⟨.null, by rw [dump], by rw [load, plain]⟩
  | .atom a, _ => ⟨.atom a, by rw [dump], by rw [load, plain]⟩
  | .tuple vs, h => by
      rw [Savable] at h
      obtain ⟨js, h1, h2⟩ := load_dumpAll g vs h
      exact ⟨.arr js, by rw [dump, h1]; rfl, by rw [load, h2, plain]; rfl⟩
  | .list vs, h => by
      rw [Savable] at h
      obtain ⟨js, h1, h2⟩ := load_dumpAll g vs h
      exact ⟨.arr js, by rw [dump, h1]; rfl, by rw [load, h2, plain]; rfl⟩
  | .dict jit keys vs, h => by
      rw [Savable] at h
      obtain ⟨js, h1, h2⟩ := load_dumpAll g vs h.2.2
      refine ⟨.obj keys js, by rw [dump, h1]; rfl, ?_⟩
      rw [load, h2, plain]
      simp only [hook, look_none keys _ "_type" h.2.1]
  | .obj c names vs, h => by
      rw [Savable] at h
      obtain ⟨hc, rfl, hl, hgr, hvs⟩ := h
      obtain ⟨es, h1, h2⟩ := load_dumpAll g vs hvs
      obtain ⟨j, h3, h4⟩ := pack_load g c hc es (plainAll vs)
        (by rw [dumpAll_length h1, hl]) h2 (by
          intro e he
          obtain ⟨v, hv, hd⟩ := look_dumpAll _ h1 _ he
          obtain ⟨x, rfl, hx⟩ := hgr v hv
          rw [dump] at hd
          exact ⟨x, (Option.some.inj hd).symm, hx⟩)
      refine ⟨j, ?_, ?_⟩
      · rw [dump, h1]; exact h3
      · rw [plain, h4]

theorem load_dumpAll {α : Type} (g : Grid α) :
    (vs : List (Val α)) → SavableAll g vs →
      ∃ js, dumpAll g vs = some js ∧ loadAll g js = some (plainAll vs)
  | [], _ => ⟨[], by rw [dumpAll], by rw [loadAll, plainAll]⟩
  | v :: vs, h => by
      rw [SavableAll] at h
      obtain ⟨j, h1, h2⟩ := load_dump g v h.1
      obtain ⟨js, h3, h4⟩ := load_dumpAll g vs h.2
      exact ⟨j :: js, by simp only [dumpAll, h1, h3], by simp only [loadAll, h2, h4, plainAll]⟩

end

/-- Objects that are written under another name cannot be loaded. -/
theorem unnamed_not_restored {α : Type} (g : Grid α) (c : TCls) (hc : ¬ NameKept c)
    (vs : List (Val α)) (hl : vs.length = (ctorAttrs c).length) (hs : SavableAll g vs) :
    ∃ j, dump g (.obj c (ctorAttrs c) vs) = some j ∧ load g j = none := by
  obtain ⟨es, h1, h2⟩ := load_dumpAll g vs hs
  have hm := loadAll_map h2
  have hle : es.length = (ctorAttrs c).length := by rw [dumpAll_length h1, hl]
  have hlw : (plainAll vs).length = (ctorAttrs c).length := by
    rw [← hle, ← List.length_map (as := plainAll vs) (f := some), ← hm, List.length_map]
  simp only [dump, h1]
  generalize plainAll vs = ws at hm hlw
  clear h1 h2 hl hs
  rcases c with c | _ | _ | _ | _ | _ | _ | _ | _ <;> try cases c
  all_goals first
    | exact absurd (by decide) hc
    | skip
  all_goals
    explicit hle
    explicit hlw
    simp only [List.map_cons, List.map_nil, List.cons.injEq, and_true] at hm
    refine ⟨_, rfl, ?_⟩
    loading hm
    rfl

/-! ### Equality -/

/-- An object without children is determined by its auxiliary data. -/
theorem static_determines {β : Type} (c : TCls) (hc : flatChildren c = []) (vs ws : List β)
    (hv : vs.length = (ctorAttrs c).length) (hw : ws.length = (ctorAttrs c).length)
    (h : (flattenAttrs c (ctorAttrs c) vs).map Prod.snd =
      (flattenAttrs c (ctorAttrs c) ws).map Prod.snd) : vs = ws := by
  rcases c with c | _ | _ | _ | _ | _ | _ | _ | _ <;> try cases c
  all_goals first
    | exact absurd hc (by decide)
    | skip
  all_goals
    explicit hv
    explicit hw
    first
      | rfl
      | (injection Option.some.inj h; done)
      | (injection Option.some.inj h with h'
         simp only [List.reverse_cons, List.reverse_nil, List.nil_append, List.cons_append,
           List.cons.injEq, and_true] at h'
         simp [h'])

theorem stateEq_symm {α : Type} (a b : Val α) (h : stateEq a b) : stateEq b a := by
  unfold stateEq at h ⊢
  split at h
  · rename_i na va nb vb
    obtain ⟨h1, h2, h3⟩ := h
    refine ⟨fun n hn => (h1 n hn).symm, h2.symm, ?_⟩
    split at h3
    · rename_i e1 e2
      rw [e1, e2]
      exact ⟨fun k => (h3.1 k).symm, fun k hk => (h3.2 k ((h3.1 k).2 hk)).symm⟩
    · exact h3.elim
  · exact h.elim

theorem stateEq_trans {α : Type} (a b c : Val α) (h : stateEq a b) (h' : stateEq b c) :
    stateEq a c := by
  unfold stateEq at h h' ⊢
  split at h
  · rename_i na va nb vb
    split at h'
    · rename_i nb' vb' nc vc e
      cases e
      obtain ⟨h1, h2, h3⟩ := h
      obtain ⟨h1', h2', h3'⟩ := h'
      refine ⟨fun n hn => (h1 n hn).trans (h1' n hn), h2.trans h2', ?_⟩
      split at h3
      · rename_i e1 e2
        rw [e2] at h3'
        split at h3'
        · rename_i e3 e4
          cases e3
          rw [e1, e4]
          exact ⟨fun k => (h3.1 k).trans (h3'.1 k),
            fun k hk => (h3.2 k hk).trans (h3'.2 k ((h3.1 k).1 hk))⟩
        · exact h3'.elim
      · exact h3.elim
    · exact h'.elim
  · exact h.elim

theorem stateEq_refl {α : Type} (a : Val α) {n vs j k m} (e : a = .obj .PlasmaState n vs)
    (hm : look n vs "models" = some (.dict j k m)) : stateEq a a := by
  subst e
  unfold stateEq
  refine ⟨fun _ _ => rfl, rfl, ?_⟩
  rw [hm]
  exact ⟨fun _ => Iff.rfl, fun _ _ => rfl⟩

theorem made_of_mem {α : Type} {ok : TCls → Prop} {vs : List (Val α)} (h : MadeAll ok vs)
    {v : Val α} (hv : v ∈ vs) : Made ok v := (madeAll_iff ok vs).1 h v hv

theorem mem_of_look {β : Type} {names : List String} {vs : List β} {n : String} {v : β}
    (h : look names vs n = some v) : n ∈ names := by
  by_contra hn
  rw [look_none names vs n hn] at h
  cases h

theorem equal_states {α : Type} (a b : Val α) (h : stateEq a b)
    (ha : Made (fun _ => True) a) (hb : Made (fun _ => True) b) :
    ∃ va vb ja jb ka kb ma mb,
      a = .obj .PlasmaState (ctorAttrs .PlasmaState) va ∧
      b = .obj .PlasmaState (ctorAttrs .PlasmaState) vb ∧
      look (ctorAttrs .PlasmaState) va "models" = some (.dict ja ka ma) ∧
      look (ctorAttrs .PlasmaState) vb "models" = some (.dict jb kb mb) ∧
      (∀ n ∈ ctorAttrs .PlasmaState, n ≠ "models" →
        look (ctorAttrs .PlasmaState) va n = look (ctorAttrs .PlasmaState) vb n) ∧
      (∀ k, k ∈ ka ↔ k ∈ kb) ∧
      ∀ k c n1 v1 n2 v2, look ka ma k = some (.obj c n1 v1) → look kb mb k = some (.obj c n2 v2) →
        flatChildren c = [] → (Val.obj c n1 v1 : Val α) = .obj c n2 v2 := by
  unfold stateEq at h
  split at h
  · rename_i na va nb vb
    rw [Made] at ha hb
    obtain ⟨-, rfl, hla, hva⟩ := ha
    obtain ⟨-, rfl, hlb, hvb⟩ := hb
    obtain ⟨h1, h2, h3⟩ := h
    split at h3
    · rename_i ja ka ma jb kb mb e1 e2
      refine ⟨va, vb, ja, jb, ka, kb, ma, mb, rfl, rfl, e1, e2, ?_, h3.1, ?_⟩
      · intro n hn hne
        by_cases hi : n = "ions"
        · rw [hi]; exact h2
        · apply h1
          simp only [ctorAttrs, List.mem_cons, List.not_mem_nil, or_false] at hn ⊢
          tauto
      · intro k c n1 v1 n2 v2 l1 l2 hc
        have hk : k ∈ ka := mem_of_look l1
        have hs := h3.2 k hk
        rw [l1, l2] at hs
        simp only [Option.bind_some, stateEq.staticOf] at hs
        have m1 := made_of_mem hva (look_mem e1)
        have m2 := made_of_mem hvb (look_mem e2)
        rw [Made] at m1 m2
        have o1 := made_of_mem m1.2 (look_mem l1)
        have o2 := made_of_mem m2.2 (look_mem l2)
        rw [Made] at o1 o2
        obtain ⟨-, rfl, q1, -⟩ := o1
        obtain ⟨-, rfl, q2, -⟩ := o2
        rw [static_determines c hc v1 v2 q1 q2 hs]
    · exact h3.elim
  · exact h.elim

end Verif.Tree
