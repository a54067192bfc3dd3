/-
Lemmas on the encoding of single values.
-/
import Verif.Model.Encode
import Verif.Props.Elements
import Mathlib.Tactic.Ring

set_option autoImplicit false

namespace Verif.Encode

open Verif.Elements

variable {α : Type}

/-- The entry has the type. -/
def Fits : Dt → Sc α → Prop
  | .f64, .flt _ => True
  | .f32, .flt _ => True
  | .i64, .int _ => True
  | .i32, .int _ => True
  | .bool, .bool _ => True
  | _, _ => False

/-- Arrays as they exist: as many entries as the shape says, all of the type. -/
def Arr.Ok (a : Arr α) : Prop := a.data.length = a.shape.prod ∧ ∀ x ∈ a.data, Fits a.dt x

/-- The shape with everything after the first zero removed. -/
def keptShape : List Nat → List Nat
  | [] => []
  | 0 :: _ => [0]
  | (n + 1) :: ds => (n + 1) :: keptShape ds

/-- The type an array is read with. -/
def keptDt (dt : Dt) (shape : List Nat) : Dt :=
  if 0 ∈ shape then .f64 else if dt = .i32 then .i64 else dt

theorem mapM_some_of {β γ : Type} (f : β → Option γ) (g : β → γ) (l : List β)
    (h : ∀ x ∈ l, f x = some (g x)) : l.mapM f = some (l.map g) := by
  induction l with
  | nil => simp
  | cons x l ih =>
    rw [List.mapM_cons, h x (by simp), ih fun y hy => h y (by simp [hy])]
    simp

theorem mapM_none_of {β γ : Type} (f : β → Option γ) (l : List β) (x : β) (hx : x ∈ l)
    (h : f x = none) : l.mapM f = none := by
  induction l with
  | nil => simp at hx
  | cons y l ih =>
    rw [List.mapM_cons]
    cases hy : f y with
    | none => simp
    | some b =>
      have : x ∈ l := by
        rcases List.mem_cons.1 hx with rfl | hx
        · rw [h] at hy; simp at hy
        · exact hx
      rw [ih this]; simp

theorem decAll_map {β : Type} (f : β → J α) (g : β → V α) (l : List β)
    (h : ∀ x ∈ l, dec (f x) = some (g x)) : decAll (l.map f) = some (l.map g) := by
  induction l with
  | nil => simp [decAll]
  | cons x l ih =>
    rw [List.map_cons, decAll, h x (by simp), ih fun y hy => h y (by simp [hy])]
    simp

theorem rows_length (k : Nat) : ∀ (n : Nat) (d : List (Sc α)), (rows k n d).length = n
  | 0, _ => rfl
  | n + 1, d => by simp [rows, rows_length k n]

theorem rows_spec (k : Nat) : ∀ (n : Nat) (d : List (Sc α)), d.length = n * k →
    (rows k n d).flatten = d ∧ ∀ r ∈ rows k n d, r.length = k ∧ ∀ x ∈ r, x ∈ d
  | 0, d, h => by
      have : d = [] := by simpa using h
      simp [rows, this]
  | n + 1, d, h => by
      have hd : (d.drop k).length = n * k := by
        rw [List.length_drop, h]; rw [Nat.succ_mul]; omega
      obtain ⟨h1, h2⟩ := rows_spec k n (d.drop k) hd
      refine ⟨by simp [rows, h1], ?_⟩
      intro r hr
      simp only [rows, List.mem_cons] at hr
      rcases hr with rfl | hr
      · refine ⟨?_, fun x hx => List.mem_of_mem_take hx⟩
        rw [List.length_take, h, Nat.succ_mul]; omega
      · exact ⟨(h2 r hr).1, fun x hx => List.mem_of_mem_drop ((h2 r hr).2 x hx)⟩

theorem stack_flt (xs : List α) :
    stack (xs.map fun x => V.flt x) = some ⟨.f64, [xs.length], xs.map .flt⟩ := by
  cases xs with
  | nil => rfl
  | cons x xs =>
    have := mapM_some_of (asFlt (α := α)) (fun v => match v with | .flt x => .flt x | _ => .int 0)
      (xs.map fun x => V.flt x) (by
        intro v hv; obtain ⟨y, _, rfl⟩ := List.mem_map.1 hv; rfl)
    rw [List.map_cons, stack, this]
    simp [Function.comp_def]

theorem stack_int (xs : List Int) (hne : xs ≠ []) :
    stack (xs.map fun x => (V.int x : V α)) = some ⟨.i64, [xs.length], xs.map .int⟩ := by
  cases xs with
  | nil => exact absurd rfl hne
  | cons x xs =>
    have := mapM_some_of (asInt (α := α)) (fun v => match v with | .int x => .int x | _ => .int 0)
      (xs.map fun x => V.int x) (by
        intro v hv; obtain ⟨y, _, rfl⟩ := List.mem_map.1 hv; rfl)
    rw [List.map_cons, stack, this]
    simp [Function.comp_def]

theorem stack_rows (dt : Dt) (shape : List Nat) (rs : List (List (Sc α))) (hne : rs ≠ []) :
    stack (rs.map fun r => V.narr ⟨dt, shape, r⟩) =
      some ⟨dt, rs.length :: shape, rs.flatten⟩ := by
  cases rs with
  | nil => exact absurd rfl hne
  | cons r rs =>
    have := mapM_some_of (asRow (α := α) dt shape)
      (fun v => match v with | .narr a => a.data | _ => [])
      (rs.map fun r => V.narr ⟨dt, shape, r⟩) (by
        intro v hv; obtain ⟨y, _, rfl⟩ := List.mem_map.1 hv; simp [asRow])
    rw [List.map_cons, stack]
    simp only
    rw [this]
    simp [Function.comp_def]

theorem flt_of_fits (dt : Dt) (hdt : dt = .f64 ∨ dt = .f32) (d : List (Sc α))
    (h : ∀ x ∈ d, Fits dt x) : ∃ xs : List α, d = xs.map .flt := by
  induction d with
  | nil => exact ⟨[], rfl⟩
  | cons x d ih =>
    obtain ⟨xs, rfl⟩ := ih fun y hy => h y (by simp [hy])
    have := h x (by simp)
    cases x with
    | flt x => exact ⟨x :: xs, rfl⟩
    | int i => rcases hdt with rfl | rfl <;> exact this.elim
    | bool i => rcases hdt with rfl | rfl <;> exact this.elim

theorem int_of_fits (dt : Dt) (hdt : dt = .i64 ∨ dt = .i32) (d : List (Sc α))
    (h : ∀ x ∈ d, Fits dt x) : ∃ xs : List Int, d = xs.map .int := by
  induction d with
  | nil => exact ⟨[], rfl⟩
  | cons x d ih =>
    obtain ⟨xs, rfl⟩ := ih fun y hy => h y (by simp [hy])
    have := h x (by simp)
    cases x with
    | int x => exact ⟨x :: xs, rfl⟩
    | flt i => rcases hdt with rfl | rfl <;> exact this.elim
    | bool i => rcases hdt with rfl | rfl <;> exact this.elim

theorem keptShape_nil : ∀ (s : List Nat), s ≠ [] → keptShape s ≠ []
  | [], h => absurd rfl h
  | 0 :: _, _ => by simp [keptShape]
  | (_ + 1) :: _, _ => by simp [keptShape]

/-- Arrays that can be written are read with all their entries. -/
theorem encRows_spec (dt : Dt) : ∀ (shape : List Nat) (d : List (Sc α)), shape ≠ [] →
    d.length = shape.prod → (∀ x ∈ d, Fits dt x) →
    (0 ∈ shape ∨ dt = .f64 ∨ dt = .i64 ∨ dt = .i32) →
    ∃ l vs, encRows dt shape d = some l ∧ decAll l = some vs ∧
      stack vs = some ⟨keptDt dt shape, keptShape shape, d⟩
  | [], _, h, _, _, _ => absurd rfl h
  | [n], d, _, hl, hf, hs => by
      have hl : d.length = n := by simpa using hl
      cases n with
      | zero =>
        have : d = [] := by simpa using hl
        subst this
        exact ⟨[], [], by simp [encRows], by simp [decAll], by simp [stack, keptDt, keptShape]⟩
      | succ n =>
        have h0 : (0 : Nat) ∉ [n + 1] := by simp
        rcases hs with hs | rfl | hs
        · exact absurd hs h0
        · obtain ⟨xs, rfl⟩ := flt_of_fits .f64 (Or.inl rfl) d hf
          refine ⟨xs.map fun x => J.num x, xs.map fun x => V.flt x, ?_, ?_, ?_⟩
          · rw [encRows, List.mapM_map]
            exact mapM_some_of _ _ _ fun x _ => rfl
          · exact decAll_map _ _ _ fun x _ => by simp [dec]
          · rw [stack_flt]
            simp only [List.length_map] at hl
            simp [keptDt, keptShape, hl]
        · have hd : dt = .i64 ∨ dt = .i32 := hs
          obtain ⟨xs, rfl⟩ := int_of_fits dt hd d hf
          simp only [List.length_map] at hl
          refine ⟨xs.map fun x => J.int x, xs.map fun x => V.int x, ?_, ?_, ?_⟩
          · rw [encRows, List.mapM_map]
            exact mapM_some_of _ _ _ fun x _ => by rcases hd with rfl | rfl <;> rfl
          · exact decAll_map _ _ _ fun x _ => by simp [dec]
          · rw [stack_int _ (by intro h; subst h; simp at hl)]
            rcases hd with rfl | rfl <;> simp [keptDt, keptShape, hl]
  | n :: m :: ds, d, _, hl, hf, hs => by
      have hl : d.length = n * (m :: ds).prod := by rw [hl, List.prod_cons]
      obtain ⟨hfl, hrow⟩ := rows_spec _ n d hl
      have hlen := rows_length (m :: ds).prod n d
      rw [encRows]
      cases n with
      | zero =>
        have hd : d = [] := by simpa using hl
        subst hd
        exact ⟨[], [], by simp [rows], by simp [decAll], by simp [stack, keptDt, keptShape]⟩
      | succ n =>
        have hs' : 0 ∈ (m :: ds) ∨ dt = .f64 ∨ dt = .i64 ∨ dt = .i32 := by
          rcases hs with hs | hs
          · left
            rcases List.mem_cons.1 hs with h | h
            · omega
            · exact h
          · exact Or.inr hs
        have ih : ∀ r ∈ rows (m :: ds).prod (n + 1) d, ∃ l vs,
            encRows dt (m :: ds) r = some l ∧ decAll l = some vs ∧
              stack vs = some ⟨keptDt dt (m :: ds), keptShape (m :: ds), r⟩ := fun r hr =>
          encRows_spec dt (m :: ds) r (by simp) (hrow r hr).1
            (fun x hx => hf x ((hrow r hr).2 x hx)) hs'
        let g : List (Sc α) → J α := fun r => .obj "ndArray" (.arr ((encRows dt (m :: ds) r).getD []))
        refine ⟨(rows (m :: ds).prod (n + 1) d).map g,
          (rows (m :: ds).prod (n + 1) d).map fun r =>
            V.narr ⟨keptDt dt (m :: ds), keptShape (m :: ds), r⟩, ?_, ?_, ?_⟩
        · refine mapM_some_of _ g _ fun r hr => ?_
          obtain ⟨l, vs, h1, _, _⟩ := ih r hr
          simp [g, h1]
        · refine decAll_map g _ _ fun r hr => ?_
          obtain ⟨l, vs, h1, h2, h3⟩ := ih r hr
          simp [g, h1, dec, h2, hook, h3]
        · rw [stack_rows _ _ _ (by intro h; rw [h] at hlen; simp at hlen), hlen, hfl]
          have : keptDt dt ((n + 1) :: m :: ds) = keptDt dt (m :: ds) := by
            simp [keptDt]
          rw [this, keptShape]

/-- Entries of other types cannot be written. -/
theorem encRows_none (dt : Dt) (hdt : dt = .f32 ∨ dt = .bool) : ∀ (shape : List Nat)
    (d : List (Sc α)), d.length = shape.prod → 0 ∉ shape → encRows dt shape d = none
  | [], _, _, _ => rfl
  | [n], d, hl, h0 => by
      have hl : d.length = n := by simpa using hl
      have hn : n ≠ 0 := by rintro rfl; simp at h0
      obtain ⟨x, hx⟩ : ∃ x, x ∈ d := List.exists_mem_of_length_pos (by omega)
      rw [encRows]
      exact mapM_none_of _ _ x hx (by rcases hdt with rfl | rfl <;> rfl)
  | n :: m :: ds, d, hl, h0 => by
      have hl : d.length = n * (m :: ds).prod := by rw [hl, List.prod_cons]
      have hn : n ≠ 0 := by rintro rfl; simp at h0
      obtain ⟨hfl, hrow⟩ := rows_spec _ n d hl
      have hlen := rows_length (m :: ds).prod n d
      obtain ⟨r, hr⟩ : ∃ x, x ∈ rows (m :: ds).prod n d :=
        List.exists_mem_of_length_pos (by omega)
      rw [encRows]
      refine mapM_none_of _ _ r hr ?_
      rw [encRows_none dt hdt (m :: ds) r (hrow r hr).1 fun h => h0 (by simp [List.mem_cons.1 h])]
      rfl

end Verif.Encode
