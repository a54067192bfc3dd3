/-
C103: values which are saved and loaded; C104: grids of potentials which are saved and loaded.
-/
import Verif.Lemmas.Encode
import Mathlib.Tactic.Linarith
import Mathlib.Tactic.FieldSimp

set_option autoImplicit false

namespace Verif.Encode

open Verif.Elements

variable {α : Type}

/-! ### Specification -/

mutual

/-- Values as they exist: arrays have as many entries as their shape says, and elements come from
the constructor. -/
def Exists : V α → Prop
  | .jarr a => a.Ok
  | .narr a => a.Ok
  | .nsc dt x => Fits dt x
  | .quant m _ => Exists m
  | .elem e => ∃ i, mkElement i = some e
  | .list vs => ExistsAll vs
  | .tuple vs => ExistsAll vs
  | _ => True

/-- Each value of a list. -/
def ExistsAll : List (V α) → Prop
  | [] => True
  | v :: vs => Exists v ∧ ExistsAll vs

end

/-- Arrays which come back: they have a dimension, 64 bit floats or integers as entries, and no
dimension of length zero, except that the last dimension of an array of floats may have it. -/
def ArrKept (a : Arr α) : Prop :=
  a.shape ≠ [] ∧ 0 ∉ a.shape.dropLast ∧ (a.dt = .f64 ∨ a.dt = .i64 ∧ 0 ∉ a.shape)

mutual

/-- Values which come back. -/
def Kept : V α → Prop
  | .jarr a => ArrKept a
  | .narr a => ArrKept a
  | .nsc _ _ => False
  | .quant m _ => Kept m
  | .mix _ => False
  | .list vs => KeptAll vs
  | .tuple _ => False
  | _ => True

/-- Each value of a list. -/
def KeptAll : List (V α) → Prop
  | [] => True
  | v :: vs => Kept v ∧ KeptAll vs

end

/-! ### Arrays -/

theorem keptShape_eq_iff : ∀ s : List Nat, keptShape s = s ↔ 0 ∉ s.dropLast
  | [] => by simp [keptShape]
  | [0] => by simp [keptShape]
  | [n + 1] => by simp [keptShape]
  | 0 :: m :: ds => by simp [keptShape, List.dropLast]
  | (n + 1) :: m :: ds => by
      have := keptShape_eq_iff (m :: ds)
      rw [keptShape, List.cons_inj_right, this]
      simp [List.dropLast]

theorem keptDt_eq_iff (dt : Dt) (s : List Nat) (h : 0 ∈ s ∨ dt = .f64 ∨ dt = .i64 ∨ dt = .i32) :
    keptDt dt s = dt ↔ dt = .f64 ∨ dt = .i64 ∧ 0 ∉ s := by
  unfold keptDt
  by_cases h0 : 0 ∈ s
  · cases dt <;> simp [h0]
  · rcases h with h | rfl | rfl | rfl
    · exact absurd h h0
    all_goals simp [h0]

theorem prod_zero {s : List Nat} (h : 0 ∈ s) : s.prod = 0 := by
  induction s with
  | nil => simp at h
  | cons n s ih =>
    rcases List.mem_cons.1 h with rfl | h
    · simp
    · simp [ih h]

theorem reload_jarr [IntCast α] (a : Arr α) (hok : a.Ok) (hs : a.shape ≠ [])
    (h : 0 ∈ a.shape ∨ a.dt = .f64 ∨ a.dt = .i64 ∨ a.dt = .i32) :
    reload (.jarr a) = some (.jarr ⟨keptDt a.dt a.shape, keptShape a.shape, a.data⟩) ∧
    reload (.narr a) = some (.narr ⟨keptDt a.dt a.shape, keptShape a.shape, a.data⟩) := by
  obtain ⟨l, vs, h1, h2, h3⟩ := encRows_spec a.dt a.shape a.data hs hok.1 hok.2 h
  constructor
  · have : encJax a = (encRows a.dt a.shape a.data).map fun l => .obj "Array" (.arr l) := by
      unfold encJax
      split
      · rename_i h _; exact absurd h hs
      · rename_i h _; exact absurd h hs
      · rfl
    simp [reload, enc, this, h1, dec, h2, hook, h3]
  · simp [reload, enc, h1, dec, h2, hook, h3]

theorem reload_jarr_none [IntCast α] (a : Arr α) (hok : a.Ok) (hs : a.shape ≠ [])
    (h0 : 0 ∉ a.shape) (h : a.dt = .f32 ∨ a.dt = .bool) :
    reload (.jarr a) = none ∧ reload (.narr a) = none := by
  have := encRows_none a.dt h a.shape a.data hok.1 h0
  constructor
  · have h' : encJax a = (encRows a.dt a.shape a.data).map fun l => .obj "Array" (.arr l) := by
      unfold encJax
      split
      · rename_i h _; exact absurd h hs
      · rename_i h _; exact absurd h hs
      · rfl
    simp [reload, enc, h', this]
  · simp [reload, enc, this]

/-- C103.  An array with at least one dimension, none of which is empty, comes back with the same
shape and the same entries in the same places if it holds 64 bit floats or integers (32 bit integers
become 64 bit integers), for any number of dimensions; saving raises an exception for 32 bit floats
and for booleans. -/
theorem saved_array [IntCast α] (a : Arr α) (hok : a.Ok) (hs : a.shape ≠ []) (h0 : 0 ∉ a.shape) :
    ((a.dt = .f64 ∨ a.dt = .i64) → reload (.jarr a) = some (.jarr a)) ∧
    (a.dt = .i32 → reload (.jarr a) = some (.jarr { a with dt := .i64 })) ∧
    ((a.dt = .f32 ∨ a.dt = .bool) → enc (.jarr a) = none) := by
  have hk : keptShape a.shape = a.shape :=
    (keptShape_eq_iff _).2 fun h => h0 (List.mem_of_mem_dropLast h)
  obtain ⟨dt, shape, data⟩ := a
  simp only at hs h0 hk
  refine ⟨?_, ?_, ?_⟩
  · rintro (h | h) <;> simp only at h <;> subst h
    · rw [(reload_jarr _ hok hs (by simp)).1]; simp [keptDt, h0, hk]
    · rw [(reload_jarr _ hok hs (by simp)).1]; simp [keptDt, h0, hk]
  · intro h; simp only at h; subst h
    rw [(reload_jarr _ hok hs (by simp)).1]; simp [keptDt, h0, hk]
  · intro h
    have h1 := encRows_none dt h shape data hok.1 h0
    have : encJax ⟨dt, shape, data⟩ = (encRows dt shape data).map fun l => .obj "Array" (.arr l) := by
      unfold encJax
      split
      · rename_i h _; exact absurd h hs
      · rename_i h _; exact absurd h hs
      · rfl
    simp [enc, this, h1]

/-- C103.  An array without dimensions comes back as a python float of the same value, whatever
its type. -/
theorem saved_number [IntCast α] (dt : Dt) (x : Sc α) :
    reload (.jarr ⟨dt, [], [x]⟩) = some (.flt (toFloat x)) := by
  simp [reload, enc, encJax, dec]

/-- C103.  An array with an empty dimension loses its type and all dimensions after the first
empty one. -/
theorem saved_empty [IntCast α] (a : Arr α) (hok : a.Ok) (before after : List Nat)
    (hs : a.shape = before ++ 0 :: after) (hb : 0 ∉ before) :
    reload (.jarr a) = some (.jarr ⟨.f64, before ++ [0], []⟩) := by
  have hk : ∀ b : List Nat, 0 ∉ b → keptShape (b ++ 0 :: after) = b ++ [0] := by
    intro b hb
    induction b with
    | nil => rfl
    | cons n b ih =>
      cases n with
      | zero => simp at hb
      | succ n =>
        rw [List.cons_append, keptShape, ih fun h => hb (by simp [h])]; rfl
  have h0 : 0 ∈ a.shape := by rw [hs]; simp
  have hd : a.data = [] := by
    have := hok.1; rw [prod_zero h0] at this; simpa using this
  rw [(reload_jarr a hok (by rw [hs]; simp) (Or.inl h0)).1, hd]
  have : keptDt a.dt a.shape = .f64 := by simp [keptDt, h0]
  rw [this, hs, hk before hb]

/-! ### All values -/

theorem arr_iff [IntCast α] (a : Arr α) (hok : a.Ok) :
    (reload (.jarr a) = some (.jarr a) ↔ ArrKept a) ∧
    (reload (.narr a) = some (.narr a) ↔ ArrKept a) := by
  obtain ⟨dt, shape, data⟩ := a
  by_cases hs : shape = []
  · subst hs
    constructor
    · have : reload (.jarr ⟨dt, [], data⟩) ≠ some (.jarr ⟨dt, [], data⟩) := by
        cases data with
        | nil => simp [reload, enc, encJax]
        | cons x d => simp [reload, enc, encJax, dec]
      simp [this, ArrKept]
    · simp [reload, enc, encRows, ArrKept]
  · by_cases h : 0 ∈ shape ∨ dt = .f64 ∨ dt = .i64 ∨ dt = .i32
    · obtain ⟨h1, h2⟩ := reload_jarr ⟨dt, shape, data⟩ hok hs h
      have e1 := keptShape_eq_iff shape
      have e2 := keptDt_eq_iff dt shape h
      constructor
      · rw [h1]
        simp only [ArrKept, Option.some.injEq, V.jarr.injEq, Arr.mk.injEq, and_true]
        rw [e1, e2]; exact ⟨fun h => ⟨hs, h.2, h.1⟩, fun h => ⟨h.2.2, h.2.1⟩⟩
      · rw [h2]
        simp only [ArrKept, Option.some.injEq, V.narr.injEq, Arr.mk.injEq, and_true]
        rw [e1, e2]; exact ⟨fun h => ⟨hs, h.2, h.1⟩, fun h => ⟨h.2.2, h.2.1⟩⟩
    · push Not at h
      obtain ⟨h0, h1, h2, h3⟩ := h
      have hdt : dt = .f32 ∨ dt = .bool := by cases dt <;> simp_all
      obtain ⟨e1, e2⟩ := reload_jarr_none ⟨dt, shape, data⟩ hok hs h0 hdt
      rw [e1, e2]
      have : ¬ ArrKept ⟨dt, shape, data⟩ := by
        rintro ⟨_, _, h | h⟩
        · exact h1 h
        · exact h2 h.1
      simp [this]

theorem decUnits (us : List (String × Sc α)) :
    (decAll (us.map fun u => J.arr [.str u.1, encExponent u.2])).bind
      (fun l => l.mapM decUnit) = some us := by
  have hexp : ∀ e : Sc α, ∃ v, dec (encExponent e) = some v ∧ decExponent v = some e := by
    intro e
    cases e
    · exact ⟨.flt _, by simp [encExponent, dec], rfl⟩
    · exact ⟨.int _, by simp [encExponent, dec], rfl⟩
    · exact ⟨.bool _, by simp [encExponent, dec], rfl⟩
  induction us with
  | nil => simp [decAll]
  | cons u us ih =>
    obtain ⟨v, h1, h2⟩ := hexp u.2
    rw [List.map_cons, decAll]
    have hd : dec (J.arr [.str u.1, encExponent u.2]) = some (.list [.str u.1, v]) := by
      simp [dec, decAll, h1]
    rw [hd]
    cases h : decAll (us.map fun u => J.arr [.str u.1, encExponent u.2]) with
    | none => rw [h] at ih; simp at ih
    | some l =>
      rw [h] at ih
      simp only [Option.bind_some] at ih ⊢
      rw [List.mapM_cons, ih]
      simp [decUnit, h2]

theorem reload_quant [IntCast α] (m : V α) (us : List (String × Sc α)) :
    reload (.quant m us) = (reload m).map fun m => .quant m us := by
  unfold reload
  rw [enc]
  cases h : enc m with
  | none => rfl
  | some j =>
    have hu := decUnits us
    cases h' : decAll (us.map fun u => J.arr [.str u.1, encExponent u.2]) with
    | none => rw [h'] at hu; simp at hu
    | some l =>
      rw [h'] at hu
      simp only [Option.bind_some] at hu
      cases h'' : dec j with
      | none => simp [dec, decAll, h'']
      | some v => simp [dec, decAll, h'', encUnits, h', hook, hu]

theorem reload_list_iff [IntCast α] : ∀ vs : List (V α),
    (encAll vs).bind decAll = some vs ↔ ∀ v ∈ vs, reload v = some v
  | [] => by simp [encAll, decAll]
  | v :: vs => by
      have ih := reload_list_iff vs
      rw [List.forall_mem_cons, ← ih, encAll]
      unfold reload
      cases h : enc v with
      | none => simp
      | some j =>
        cases h' : encAll vs with
        | none => simp
        | some js =>
          simp only [Option.bind_some, decAll]
          cases dec j <;> cases decAll js <;> simp

mutual

/-- C103.  Which values come back from a file exactly as they were saved: all numbers, strings,
elements, the arrays of `ArrKept`, and quantities and lists of those, nested to any depth.  All
others come back changed or not at all. -/
theorem saved_value_iff [IntCast α] : ∀ v : V α, Exists v → (reload v = some v ↔ Kept v)
  | .none, _ => by simp [reload, enc, dec, Kept]
  | .bool b, _ => by simp [reload, enc, dec, Kept]
  | .int i, _ => by simp [reload, enc, dec, Kept]
  | .flt x, _ => by simp [reload, enc, dec, Kept]
  | .str s, _ => by simp [reload, enc, dec, Kept]
  | .nsc dt x, _ => by
      simp only [Kept, iff_false]
      cases dt <;> cases x <;> simp [reload, enc, dec, encScalar]
  | .jarr a, h => by
      rw [Kept]; exact (arr_iff a (by simpa [Exists] using h)).1
  | .narr a, h => by
      rw [Kept]; exact (arr_iff a (by simpa [Exists] using h)).2
  | .quant m us, h => by
      have ih := saved_value_iff m (by simpa [Exists] using h)
      rw [reload_quant, Kept, ← ih]
      cases reload m <;> simp
  | .elem e, h => by
      obtain ⟨i, hi⟩ : ∃ i, mkElement i = some e := by simpa [Exists] using h
      have hs : mkElement (.sym e.symbol) = some e := by
        cases i with
        | sym s => rw [((symbol_and_number_agree e).1 s hi).1]; exact hi
        | num z => exact ((symbol_and_number_agree e).2 z hi).2
      simp [reload, enc, dec, hook, hs, Kept]
  | .mix z, _ => by
      have : reload (.mix z) ≠ some (.mix z) := by
        simp only [reload, enc, Option.bind_some, dec, hook]
        cases mkElement (.sym "MIX") <;> simp
      simp [this, Kept]
  | .list vs, h => by
      have ih := saved_values_iff vs (by simpa [Exists] using h)
      rw [Kept, ← ih, ← reload_list_iff]
      unfold reload
      rw [enc]
      cases h1 : encAll vs with
      | none => simp
      | some js =>
        simp only [Option.map_some, Option.bind_some, dec]
        cases decAll js <;> simp
  | .tuple vs, _ => by
      have : reload (.tuple vs) ≠ some (.tuple vs) := by
        unfold reload
        rw [enc]
        cases h1 : encAll vs with
        | none => simp
        | some js =>
          simp only [Option.map_some, Option.bind_some, dec]
          cases decAll js <;> simp
      simp [this, Kept]

/-- Each value of a list. -/
theorem saved_values_iff [IntCast α] : ∀ vs : List (V α), ExistsAll vs →
    ((∀ v ∈ vs, reload v = some v) ↔ KeptAll vs)
  | [], _ => by simp [KeptAll]
  | v :: vs, h => by
      simp only [ExistsAll] at h
      rw [List.forall_mem_cons, KeptAll, saved_value_iff v h.1, saved_values_iff vs h.2]

end

/-- C103.  An average atom (`MixElement`) can be saved but never be loaded. -/
theorem saved_mix [IntCast α] (z : α) : (enc (.mix z)).isSome ∧ reload (.mix z) = none := by
  have : mkElement (.sym "MIX") = none := by
    cases h : mkElement (.sym "MIX") with
    | none => rfl
    | some e =>
      obtain ⟨n, h1, h2⟩ := (sym_iff "MIX" e).1 h
      have hn := symbols_lookup_range n "MIX" h1
      have : ∀ n < 37, symbols.lookup n ≠ some "MIX" := by decide +kernel
      exact absurd h1 (this n (by omega))
  simp [reload, enc, dec, hook, this]

theorem reload_all_none [IntCast α] : ∀ (vs : List (V α)) (v : V α), v ∈ vs → reload v = none →
    (encAll vs).bind decAll = none
  | [], _, h, _ => by simp at h
  | w :: vs, v, h, hv => by
      rw [encAll]
      cases h1 : enc w with
      | none => simp
      | some j =>
        cases h2 : encAll vs with
        | none => simp
        | some js =>
          simp only [Option.bind_some, decAll]
          rcases List.mem_cons.1 h with rfl | h
          · have : dec j = none := by simpa [reload, h1] using hv
            simp [this]
          · have : decAll js = none := by simpa [h2] using reload_all_none vs v h hv
            simp [this]

/-- C103.  Nor can a list of ions be loaded of which one is an average atom. -/
theorem saved_mix_list [IntCast α] (vs : List (V α)) (z : α) (h : V.mix z ∈ vs) :
    reload (.list vs) = none := by
  have := reload_all_none vs _ h (saved_mix z).2
  unfold reload
  rw [enc]
  cases h1 : encAll vs with
  | none => simp
  | some js =>
    rw [h1] at this
    simp only [Option.bind_some] at this
    simp [dec, this]

/-- A matrix with a unit meets the hypotheses, and comes back. -/
example : Exists (V.list [.quant (.jarr (⟨.f64, [2, 3], [.flt 1, .flt 2, .flt 3, .flt 4, .flt 5,
      .flt 6]⟩ : Arr Int)) [("gram", .int 1), ("centimeter", .int (-3))]]) ∧
    Kept (V.list [.quant (.jarr (⟨.f64, [2, 3], [.flt 1, .flt 2, .flt 3, .flt 4, .flt 5,
      .flt 6]⟩ : Arr Int)) [("gram", .int 1), ("centimeter", .int (-3))]]) := by
  simp [Exists, ExistsAll, Kept, KeptAll, ArrKept, Arr.Ok, Fits]

/-- A truth value in an array meets the hypotheses, and is not kept. -/
example : Exists (V.jarr (⟨.bool, [1], [.bool true]⟩ : Arr Int)) ∧
    ¬ Kept (V.jarr (⟨.bool, [1], [.bool true]⟩ : Arr Int)) := by
  simp [Exists, Kept, ArrKept, Arr.Ok, Fits]

/-! ### C104: the grid of a potential -/

theorem foldl_min_spec (xs : List ℝ) (x : ℝ) :
    xs.foldl min x ∈ x :: xs ∧ ∀ y ∈ x :: xs, xs.foldl min x ≤ y := by
  induction xs generalizing x with
  | nil => simp
  | cons z xs ih =>
    obtain ⟨h1, h2⟩ := ih (min x z)
    rw [List.foldl_cons]
    constructor
    · rcases List.mem_cons.1 h1 with h | h
      · rw [h]; rcases min_choice x z with h | h <;> simp [h]
      · simp [h]
    · intro y hy
      have hm := h2 (min x z) (by simp)
      rcases List.mem_cons.1 hy with rfl | hy
      · exact hm.trans (min_le_left _ _)
      · rcases List.mem_cons.1 hy with rfl | hy
        · exact hm.trans (min_le_right _ _)
        · exact h2 y (by simp [hy])

theorem foldl_max_spec (xs : List ℝ) (x : ℝ) :
    xs.foldl max x ∈ x :: xs ∧ ∀ y ∈ x :: xs, y ≤ xs.foldl max x := by
  induction xs generalizing x with
  | nil => simp
  | cons z xs ih =>
    obtain ⟨h1, h2⟩ := ih (max x z)
    rw [List.foldl_cons]
    constructor
    · rcases List.mem_cons.1 h1 with h | h
      · rw [h]; rcases max_choice x z with h | h <;> simp [h]
      · simp [h]
    · intro y hy
      have hm := h2 (max x z) (by simp)
      rcases List.mem_cons.1 hy with rfl | hy
      · exact (le_max_left _ _).trans hm
      · rcases List.mem_cons.1 hy with rfl | hy
        · exact (le_max_right _ _).trans hm
        · exact h2 y (by simp [hy])

/-- C104.  The grid of a potential is the same after saving and loading if and only if it is not
empty, evenly spaced, and not descending. -/
theorem saved_grid_iff (xs : List ℝ) :
    reloadGrid xs = some xs ↔
      xs ≠ [] ∧ ∃ a h : ℝ, 0 ≤ h ∧ ∀ (i : Nat) (hi : i < xs.length), xs[i] = a + i * h := by
  cases xs with
  | nil => simp [reloadGrid]
  | cons x xs =>
    obtain ⟨m1, m2⟩ := foldl_min_spec xs x
    obtain ⟨M1, M2⟩ := foldl_max_spec xs x
    simp only [reloadGrid, Option.some.injEq, ne_eq, reduceCtorEq, not_false_eq_true, true_and]
    generalize xs.foldl min x = lo at *
    generalize xs.foldl max x = hi at *
    have hlen : (linspace lo hi (xs.length + 1)).length = (x :: xs).length := by
      simp [linspace]
    constructor
    · intro h
      refine ⟨lo, (hi - lo) / (xs.length : ℝ), div_nonneg (by linarith [m2 hi M1]) (by positivity), ?_⟩
      intro i hi'
      have : (x :: xs)[i] = (linspace lo hi (xs.length + 1))[i]'(by rw [hlen]; exact hi') := by
        simp only [h]
      rw [this]
      simp [linspace]
    · rintro ⟨a, h, h0, hx⟩
      -- the first entry is the smallest, the last one the largest
      have hget : ∀ y ∈ x :: xs, ∃ i : Nat, i ≤ xs.length ∧ y = a + i * h := by
        intro y hy
        obtain ⟨i, hi', rfl⟩ := List.mem_iff_getElem.1 hy
        exact ⟨i, by simpa [Nat.lt_succ_iff] using hi', hx i hi'⟩
      have hlo : lo = a := by
        obtain ⟨i, _, hi'⟩ := hget lo m1
        have h1 := m2 ((x :: xs)[0]) (List.getElem_mem _)
        rw [hx 0 (by simp)] at h1
        have : (0 : ℝ) ≤ i * h := by positivity
        push_cast at h1
        linarith
      have hhi : hi = a + xs.length * h := by
        obtain ⟨i, hi1, hi'⟩ := hget hi M1
        have h1 := M2 ((x :: xs)[xs.length]'(by simp)) (List.getElem_mem _)
        rw [hx xs.length (by simp)] at h1
        have : (i : ℝ) * h ≤ xs.length * h := by
          have : (i : ℝ) ≤ xs.length := by exact_mod_cast hi1
          exact mul_le_mul_of_nonneg_right this h0
        linarith
      refine List.ext_getElem hlen fun i h1 h2 => ?_
      rw [hx i h2]
      simp only [linspace, List.getElem_map, List.getElem_range, Nat.add_sub_cancel]
      rw [hlo, hhi]
      by_cases hn : xs.length = 0
      · have : i = 0 := by simp [hn] at h2; exact h2
        subst this; simp
      · have : (xs.length : ℝ) ≠ 0 := by exact_mod_cast hn
        field_simp
        ring

/-- C104.  Any other grid is replaced silently: with the same number of points and the same
limits. -/
theorem saved_grid_limits (xs ys : List ℝ) (h : reloadGrid xs = some ys) :
    ys.length = xs.length ∧ (∃ lo ∈ xs, (∀ x ∈ xs, lo ≤ x) ∧ ys.head? = some lo) ∧
    (2 ≤ xs.length → ∃ hi ∈ xs, (∀ x ∈ xs, x ≤ hi) ∧ ys.getLast? = some hi) := by
  cases xs with
  | nil => simp [reloadGrid] at h
  | cons x xs =>
    simp only [reloadGrid, Option.some.injEq] at h
    subst h
    obtain ⟨m1, m2⟩ := foldl_min_spec xs x
    obtain ⟨M1, M2⟩ := foldl_max_spec xs x
    refine ⟨by simp [linspace], ⟨_, m1, m2, ?_⟩, fun hl => ⟨_, M1, M2, ?_⟩⟩
    · simp [linspace, List.range_succ_eq_map]
    · have hn : (xs.length : ℝ) ≠ 0 := by
        have : xs.length ≠ 0 := by simp at hl; omega
        exact_mod_cast this
      rw [linspace, List.range_succ, List.map_append]
      simp only [List.map_cons, List.map_nil, List.getLast?_append, List.getLast?_singleton,
        Option.some_or, Option.some.injEq, Nat.add_sub_cancel]
      field_simp
      ring

/-- An evenly spaced grid, and one which is not. -/
example : reloadGrid [1, 3, 5] = some [1, 3, 5] ∧ reloadGrid [1, 2, 5] ≠ some [1, 2, 5] := by
  constructor
  · refine (saved_grid_iff _).2 ⟨by simp, 1, 2, by norm_num, fun i hi => ?_⟩
    have hi' : i < 3 := by simpa using hi
    interval_cases i <;> norm_num
  · intro h
    obtain ⟨_, a, h, _, hx⟩ := (saved_grid_iff _).1 h
    have h0 := hx 0 (by simp)
    have h1 := hx 1 (by simp)
    have h2 := hx 2 (by simp)
    simp at h0 h1 h2
    linarith

end Verif.Encode
