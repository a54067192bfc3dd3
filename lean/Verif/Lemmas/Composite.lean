/-
Lemmas about the heap of sums and multiples.
-/
import Verif.Model.Composite
import Mathlib.Tactic.Abel

set_option autoImplicit false

namespace Verif.Composite

variable {A K V : Type} [AddCommMonoid V] [SMul K V] {f : A → Mode → V}

/-! ### Evaluation -/

theorem eval_det {h : Heap A K} {o : Option Mode} {n : Nat} {rs : List Ref} {v : V}
    (e : Eval f h o n rs v) : ∀ {n' v'}, Eval f h o n' rs v' → n = n' ∧ v = v' := by
  induction e with
  | nil => intro n' v' e'; cases e'; exact ⟨rfl, rfl⟩
  | plain hr _ ih =>
    intro n' v' e'
    cases e' with
    | plain hr' e1 => rw [hr] at hr'; cases hr'; obtain ⟨rfl, rfl⟩ := ih e1; exact ⟨rfl, rfl⟩
    | sum hr' _ _ _ => rw [hr] at hr'; cases hr'
    | scaled hr' _ _ => rw [hr] at hr'; cases hr'
  | sum hr hl _ _ ih1 ih2 =>
    intro n' v' e'
    cases e' with
    | plain hr' e1 => rw [hr] at hr'; cases hr'
    | sum hr' hl' e1 e2 =>
      rw [hr] at hr'; cases hr'; rw [hl] at hl'; cases hl'
      obtain ⟨rfl, rfl⟩ := ih1 e1; obtain ⟨rfl, rfl⟩ := ih2 e2; exact ⟨rfl, rfl⟩
    | scaled hr' _ _ => rw [hr] at hr'; cases hr'
  | scaled hr _ _ ih1 ih2 =>
    intro n' v' e'
    cases e' with
    | plain hr' e1 => rw [hr] at hr'; cases hr'
    | sum hr' _ _ _ => rw [hr] at hr'; cases hr'
    | scaled hr' e1 e2 =>
      rw [hr] at hr'; cases hr'
      obtain ⟨rfl, rfl⟩ := ih1 e1; obtain ⟨rfl, rfl⟩ := ih2 e2; exact ⟨rfl, rfl⟩

theorem Eval.cast {h : Heap A K} {o : Option Mode} {n n' : Nat} {rs rs' : List Ref} {v v' : V}
    (e : Eval f h o n rs v) (hn : n = n') (hr : rs = rs') (hv : v = v') :
    Eval f h o n' rs' v' := by subst hn hr hv; exact e

theorem eval_append {h : Heap A K} {o : Option Mode} {n : Nat} {rs : List Ref} {v : V}
    (e : Eval f h o n rs v) : ∀ {k ss w}, Eval f h o k ss w →
      Eval f h o (n + k) (rs ++ ss) (v + w) := by
  induction e with
  | nil => intro k ss w e'; simpa using e'
  | plain hr _ ih =>
    intro k ss w e'
    exact (Eval.plain hr (ih e')).cast (by omega) rfl (add_assoc _ _ _).symm
  | sum hr hl e1 _ _ ih2 =>
    intro k ss w e'
    exact (Eval.sum hr hl e1 (ih2 e')).cast (by omega) rfl (add_assoc _ _ _).symm
  | scaled hr e1 _ _ ih2 =>
    intro k ss w e'
    exact (Eval.scaled hr e1 (ih2 e')).cast (by omega) rfl (add_assoc _ _ _).symm

theorem eval_single_cons {h : Heap A K} {o : Option Mode} {n : Nat} {r : Ref} {rs : List Ref}
    {v : V} (e : Eval f h o n (r :: rs) v) :
    ∃ n1 v1 n2 v2, Eval f h o n1 [r] v1 ∧ Eval f h o n2 rs v2 ∧ n = n1 + n2 ∧ v = v1 + v2 := by
  cases e with
  | plain hr e1 => exact ⟨1, _, _, _, .plain hr .nil, e1, by omega, by simp⟩
  | sum hr hl e1 e2 => exact ⟨_, _, _, _, .sum hr hl e1 .nil, e2, by omega, by simp⟩
  | scaled hr e1 e2 => exact ⟨_, _, _, _, .scaled hr e1 .nil, e2, by omega, by simp⟩

theorem eval_mem {h : Heap A K} {o : Option Mode} {r : Ref} : ∀ {rs : List Ref} {n : Nat} {v : V},
    Eval f h o n rs v → r ∈ rs → ∃ n1 v1, Eval f h o n1 [r] v1 ∧ n1 ≤ n
  | [], _, _, _, hm => by simp at hm
  | x :: rs, n, v, e, hm => by
    obtain ⟨n1, v1, n2, v2, e1, e2, hn, -⟩ := eval_single_cons e
    rcases List.mem_cons.1 hm with rfl | hm
    · exact ⟨n1, v1, e1, by omega⟩
    · obtain ⟨k, w, e3, hk⟩ := eval_mem e2 hm
      exact ⟨k, w, e3, by omega⟩

theorem eval_part {h : Heap A K} {o : Option Mode} {x y : Ref} {n : Nat} {v : V}
    (e : Eval f h o n [x] v) (hp : Part h x y) : ∃ n1 v1, Eval f h o n1 [y] v1 ∧ n1 < n := by
  rcases hp with ⟨l, m, ms, hx, hl, hy⟩ | ⟨c, m, hx⟩
  · cases e with
    | plain hr _ => rw [hx] at hr; cases hr
    | sum hr hl' e1 e2 =>
      rw [hx] at hr; cases hr; rw [hl] at hl'; cases hl'
      obtain ⟨n1, v1, e3, hn⟩ := eval_mem e1 hy
      exact ⟨n1, v1, e3, by omega⟩
    | scaled hr _ _ => rw [hx] at hr; cases hr
  · cases e with
    | plain hr _ => rw [hx] at hr; cases hr
    | sum hr _ _ _ => rw [hx] at hr; cases hr
    | scaled hr e1 _ => rw [hx] at hr; cases hr; exact ⟨_, _, e1, by omega⟩

theorem eval_within {h : Heap A K} {o : Option Mode} {x y : Ref} {n : Nat} {v : V}
    (e : Eval f h o n [x] v) (hp : Within h x y) : ∃ n1 v1, Eval f h o n1 [y] v1 ∧ n1 ≤ n := by
  induction hp with
  | refl => exact ⟨n, v, e, le_rfl⟩
  | tail _ hp ih =>
    obtain ⟨n1, v1, e1, h1⟩ := ih
    obtain ⟨n2, v2, e2, h2⟩ := eval_part e1 hp
    exact ⟨n2, v2, e2, by omega⟩

/-- Something that contains itself has no value. -/
theorem no_value_of_cycle {h : Heap A K} {o : Option Mode} {x y : Ref} (hp : Part h x y)
    (hw : Within h y x) {n : Nat} {v : V} : ¬ Eval f h o n [x] v := by
  intro e
  obtain ⟨n1, v1, e1, h1⟩ := eval_part e hp
  obtain ⟨n2, v2, e2, h2⟩ := eval_within e1 hw
  have := (eval_det e e2).1
  omega

/-- Evaluation of a sum. -/
theorem eval_sum_iff {h : Heap A K} {o : Option Mode} {r : Ref} {l : ListRef} {m : Mode}
    {ms : List Ref} (hr : h.objs[r]? = some (.sum l m)) (hl : h.lists[l]? = some ms) {v : V} :
    (∃ n, Eval f h o n [r] v) ↔ ∃ n, Eval f h o n ms v := by
  constructor
  · rintro ⟨n, e⟩
    cases e with
    | plain hr' _ => rw [hr] at hr'; cases hr'
    | sum hr' hl' e1 e2 =>
      rw [hr] at hr'; cases hr'; rw [hl] at hl'; cases hl'; cases e2
      exact ⟨_, by simpa using e1⟩
    | scaled hr' _ _ => rw [hr] at hr'; cases hr'
  · rintro ⟨n, e⟩
    exact ⟨_, by simpa using Eval.sum hr hl e .nil⟩

/-- The parts of the list of a sum that has a value do not use that list. -/
theorem member_not_uses {h : Heap A K} {o : Option Mode} {a : Ref} {l : ListRef} {m : Mode}
    {ms : List Ref} (ha : h.objs[a]? = some (.sum l m)) (hl : h.lists[l]? = some ms) {n : Nat}
    {v : V} (e : Eval f h o n [a] v) {y : Ref} (hy : y ∈ ms) : ¬ Uses h y l := by
  rintro ⟨z, m', hw, hz⟩
  obtain ⟨n1, v1, e1, h1⟩ := eval_part e (Or.inl ⟨l, m, ms, ha, hl, hy⟩)
  obtain ⟨n2, v2, e2, h2⟩ := eval_within e1 hw
  exact no_value_of_cycle (Or.inl ⟨l, m', ms, hz, hl, hy⟩) hw e2

/-! ### Larger heaps -/

/-- Everything that is in `h` is in `h'` at the same place. -/
structure Ext (h h' : Heap A K) : Prop where
  objs : ∀ (r : Ref) o, h.objs[r]? = some o → h'.objs[r]? = some o
  lists : ∀ (l : ListRef) ms, h.lists[l]? = some ms → h'.lists[l]? = some ms

theorem Ext.trans {h1 h2 h3 : Heap A K} (a : Ext h1 h2) (b : Ext h2 h3) : Ext h1 h3 :=
  ⟨fun r o e => b.objs r o (a.objs r o e), fun l ms e => b.lists l ms (a.lists l ms e)⟩

theorem getElem?_append_some {α : Type} {xs ys : List α} {i : Nat} {x : α}
    (h : xs[i]? = some x) : (xs ++ ys)[i]? = some x := by
  obtain ⟨hi, -⟩ := List.getElem?_eq_some_iff.1 h
  rw [List.getElem?_append_left hi, h]

theorem ext_newList (h : Heap A K) (rs : List Ref) : Ext h (h.newList rs).1 :=
  ⟨fun _ _ e => e, fun _ _ e => getElem?_append_some e⟩

theorem ext_newObj (h : Heap A K) (o : Obj A K) : Ext h (h.newObj o).1 :=
  ⟨fun _ _ e => getElem?_append_some e, fun _ _ e => e⟩

theorem eval_ext {h h' : Heap A K} (hx : Ext h h') {o : Option Mode} {n : Nat} {rs : List Ref}
    {v : V} (e : Eval f h o n rs v) : Eval f h' o n rs v := by
  induction e with
  | nil => exact .nil
  | plain hr _ ih => exact .plain (hx.objs _ _ hr) ih
  | sum hr hl _ _ ih1 ih2 => exact .sum (hx.objs _ _ hr) (hx.lists _ _ hl) ih1 ih2
  | scaled hr _ _ ih1 ih2 => exact .scaled (hx.objs _ _ hr) ih1 ih2

theorem part_ext {h h' : Heap A K} (hx : Ext h h') {x y : Ref} (p : Part h x y) :
    Part h' x y := by
  rcases p with ⟨l, m, ms, h1, h2, h3⟩ | ⟨c, m, h1⟩
  · exact Or.inl ⟨l, m, ms, hx.objs _ _ h1, hx.lists _ _ h2, h3⟩
  · exact Or.inr ⟨c, m, hx.objs _ _ h1⟩

/-! ### Extending a list in place -/

theorem appendTo_lists {h : Heap A K} {l : ListRef} {ms : List Ref} (hl : h.lists[l]? = some ms)
    (b : Ref) : (h.appendTo l b).lists[l]? = some (ms ++ [b]) := by
  obtain ⟨hi, -⟩ := List.getElem?_eq_some_iff.1 hl
  simp [Heap.appendTo, hi, (List.getElem?_eq_some_iff.1 hl).2]

theorem appendTo_lists_ne {h : Heap A K} {l l' : ListRef} (hne : l' ≠ l) (b : Ref) :
    (h.appendTo l b).lists[l']? = h.lists[l']? := by
  simp [Heap.appendTo, List.getElem?_set_ne (Ne.symm hne)]

theorem part_appendTo {h : Heap A K} {l : ListRef} {b x y : Ref} (p : Part h x y) :
    Part (h.appendTo l b) x y := by
  rcases p with ⟨l', m, ms, h1, h2, h3⟩ | ⟨c, m, h1⟩
  · by_cases hne : l' = l
    · subst hne
      exact Or.inl ⟨l', m, _, h1, appendTo_lists h2 b, by simp [h3]⟩
    · exact Or.inl ⟨l', m, ms, h1, by rw [appendTo_lists_ne hne, h2], h3⟩
  · exact Or.inr ⟨c, m, h1⟩

theorem within_mono {h h' : Heap A K} (hp : ∀ x y, Part h x y → Part h' x y) {x y : Ref}
    (w : Within h x y) : Within h' x y := Relation.ReflTransGen.mono hp _ _ w

theorem eval_appendTo {h : Heap A K} {l : ListRef} {b : Ref} {o : Option Mode} {n : Nat}
    {rs : List Ref} {v : V} (e : Eval f h o n rs v) (hu : ∀ r ∈ rs, ¬ Uses h r l) :
    Eval f (h.appendTo l b) o n rs v := by
  induction e with
  | nil => exact .nil
  | plain hr _ ih => exact .plain hr (ih fun r hm => hu r (List.mem_cons_of_mem _ hm))
  | @sum r rs l' m ms _ _ _ _ hr hl _ _ ih1 ih2 =>
    have hne : l' ≠ l := fun hh => hu r (by simp) ⟨r, m, .refl, hh ▸ hr⟩
    refine .sum hr (by rw [appendTo_lists_ne hne]; exact hl) (ih1 fun y hy => ?_)
      (ih2 fun r hm => hu r (List.mem_cons_of_mem _ hm))
    rintro ⟨z, m', hw, hz⟩
    exact hu r (by simp) ⟨z, m', .head (Or.inl ⟨l', m, ms, hr, hl, hy⟩) hw, hz⟩
  | @scaled r rs p c m _ _ _ _ hr _ _ ih1 ih2 =>
    refine .scaled hr (ih1 fun y hy => ?_)
      (ih2 fun r hm => hu r (List.mem_cons_of_mem _ hm))
    simp only [List.mem_singleton] at hy; subst hy
    rintro ⟨z, m', hw, hz⟩
    exact hu r (by simp) ⟨z, m', .head (Or.inr ⟨c, m, hr⟩) hw, hz⟩

/-! ### `join` -/

/-- The case in which `a + b` copies: `a` is not a sum, or `b` is one. -/
theorem join_copies {h : Heap A K} {a b : Ref} {h1 : Heap A K} {l : ListRef}
    (hj : h.join a b = some (h1, l))
    (hc : (∀ la m, h.objs[a]? ≠ some (.sum la m)) ∨ ∃ lb m, h.objs[b]? = some (.sum lb m))
    {o : Option Mode} {na nb : Nat} {va vb : V}
    (ea : Eval f h o na [a] va) (eb : Eval f h o nb [b] vb) :
    Ext h h1 ∧ ∃ ms n, h1.lists[l]? = some ms ∧ Eval f h o n ms (va + vb) ∧
      ∀ y ∈ ms, y = a ∨ y = b ∨ Part h a y ∨ Part h b y := by
  unfold Heap.join at hj
  have ha : ∃ oa, h.objs[a]? = some oa := by cases ea <;> exact ⟨_, by assumption⟩
  have hb : ∃ ob, h.objs[b]? = some ob := by cases eb <;> exact ⟨_, by assumption⟩
  obtain ⟨oa, ha⟩ := ha
  obtain ⟨ob, hb⟩ := hb
  rw [ha, hb] at hj
  cases oa with
  | plain x m =>
    cases ob with
    | sum lb m' =>
      simp only [Obj.asSum, Option.some.injEq] at hj
      have hl : ∃ ms, h.lists[lb]? = some ms := by
        cases eb with
        | sum hr hl _ _ => rw [hb] at hr; cases hr; exact ⟨_, hl⟩
        | plain hr _ => rw [hb] at hr; cases hr
        | scaled hr _ _ => rw [hb] at hr; cases hr
      obtain ⟨ms, hl⟩ := hl
      obtain ⟨n, e⟩ := (eval_sum_iff hb hl).1 ⟨_, eb⟩
      cases hj
      refine ⟨(ext_newList h [a]).trans (ext_newList _ _), [a] ++ ms, _, ?_, eval_append ea e, ?_⟩
      · have h2 := (ext_newList h [a]).lists _ _ hl
        simp only [Heap.newList, List.getD_eq_getElem?_getD] at h2 ⊢
        simp [h2]
      · intro y hy
        rcases List.mem_append.1 hy with hy | hy
        · simp at hy; exact Or.inl hy
        · exact Or.inr (Or.inr (Or.inr (Or.inl ⟨lb, m', ms, hb, hl, hy⟩)))
    | _ =>
      simp only [Obj.asSum, Option.some.injEq] at hj
      cases hj
      refine ⟨⟨fun _ _ e => e, fun l' ms' e => ?_⟩, [a, b], _, ?_, eval_append ea eb, ?_⟩
      · obtain ⟨hi, -⟩ := List.getElem?_eq_some_iff.1 e
        simp only [Heap.newList, Heap.appendTo]
        rw [List.getElem?_set_ne (by omega), getElem?_append_some e]
      · simp [Heap.newList, Heap.appendTo]
      · intro y hy; simp at hy; tauto
  | scaled x c m =>
    cases ob with
    | sum lb m' =>
      simp only [Obj.asSum, Option.some.injEq] at hj
      have hl : ∃ ms, h.lists[lb]? = some ms := by
        cases eb with
        | sum hr hl _ _ => rw [hb] at hr; cases hr; exact ⟨_, hl⟩
        | plain hr _ => rw [hb] at hr; cases hr
        | scaled hr _ _ => rw [hb] at hr; cases hr
      obtain ⟨ms, hl⟩ := hl
      obtain ⟨n, e⟩ := (eval_sum_iff hb hl).1 ⟨_, eb⟩
      cases hj
      refine ⟨(ext_newList h [a]).trans (ext_newList _ _), [a] ++ ms, _, ?_, eval_append ea e, ?_⟩
      · have h2 := (ext_newList h [a]).lists _ _ hl
        simp only [Heap.newList, List.getD_eq_getElem?_getD] at h2 ⊢
        simp [h2]
      · intro y hy
        rcases List.mem_append.1 hy with hy | hy
        · simp at hy; exact Or.inl hy
        · exact Or.inr (Or.inr (Or.inr (Or.inl ⟨lb, m', ms, hb, hl, hy⟩)))
    | _ =>
      simp only [Obj.asSum, Option.some.injEq] at hj
      cases hj
      refine ⟨⟨fun _ _ e => e, fun l' ms' e => ?_⟩, [a, b], _, ?_, eval_append ea eb, ?_⟩
      · obtain ⟨hi, -⟩ := List.getElem?_eq_some_iff.1 e
        simp only [Heap.newList, Heap.appendTo]
        rw [List.getElem?_set_ne (by omega), getElem?_append_some e]
      · simp [Heap.newList, Heap.appendTo]
      · intro y hy; simp at hy; tauto
  | sum la m =>
    rcases hc with hc | ⟨lb, m', hb'⟩
    · exact absurd ha (hc la m)
    rw [hb] at hb'; cases hb'
    simp only [Obj.asSum, Option.some.injEq] at hj
    have hlb : ∃ ms, h.lists[lb]? = some ms := by
      cases eb with
      | sum hr hl _ _ => rw [hb] at hr; cases hr; exact ⟨_, hl⟩
      | plain hr _ => rw [hb] at hr; cases hr
      | scaled hr _ _ => rw [hb] at hr; cases hr
    have hla : ∃ ms, h.lists[la]? = some ms := by
      cases ea with
      | sum hr hl _ _ => rw [ha] at hr; cases hr; exact ⟨_, hl⟩
      | plain hr _ => rw [ha] at hr; cases hr
      | scaled hr _ _ => rw [ha] at hr; cases hr
    obtain ⟨msb, hlb⟩ := hlb
    obtain ⟨msa, hla⟩ := hla
    obtain ⟨n1, e1⟩ := (eval_sum_iff ha hla).1 ⟨_, ea⟩
    obtain ⟨n2, e2⟩ := (eval_sum_iff hb hlb).1 ⟨_, eb⟩
    cases hj
    refine ⟨ext_newList h _, msa ++ msb, _, ?_, eval_append e1 e2, ?_⟩
    · simp [hla, hlb]
    · intro y hy
      rcases List.mem_append.1 hy with hy | hy
      · exact Or.inr (Or.inr (Or.inl (Or.inl ⟨la, m, msa, ha, hla, hy⟩)))
      · exact Or.inr (Or.inr (Or.inr (Or.inl ⟨lb, m', msb, hb, hlb, hy⟩)))

/-- The case in which `a + b` extends the list of `a`. -/
theorem join_in_place {h : Heap A K} {a b : Ref} {la : ListRef} {m : Mode} {ob : Obj A K}
    (ha : h.objs[a]? = some (.sum la m)) (hb : h.objs[b]? = some ob)
    (hn : ∀ lb m, ob ≠ .sum lb m) : h.join a b = some (h.appendTo la b, la) := by
  unfold Heap.join
  rw [ha, hb]
  cases ob with
  | sum lb m' => exact absurd rfl (hn lb m')
  | plain _ _ => rfl
  | scaled _ _ _ => rfl

/-! ### `include_electrons` -/

theorem withMode_mode (o : Obj A K) (m : Mode) : (o.withMode m).mode = m := by
  cases o <;> rfl

theorem withMode_withMode (o : Obj A K) (m m' : Mode) :
    (o.withMode m).withMode m' = o.withMode m' := by cases o <;> rfl

theorem withMode_self (o : Obj A K) : o.withMode o.mode = o := by cases o <;> rfl

/-- The two heaps differ in `include_electrons` only. -/
structure Shape (h h' : Heap A K) : Prop where
  lists : h'.lists = h.lists
  objs : ∀ r : Ref, (h'.objs[r]?).map (Obj.withMode .off) = (h.objs[r]?).map (Obj.withMode .off)

theorem Shape.refl (h : Heap A K) : Shape h h := ⟨rfl, fun _ => rfl⟩

theorem Shape.trans {h1 h2 h3 : Heap A K} (a : Shape h1 h2) (b : Shape h2 h3) : Shape h1 h3 :=
  ⟨b.lists.trans a.lists, fun r => (b.objs r).trans (a.objs r)⟩

theorem Shape.symm {h1 h2 : Heap A K} (a : Shape h1 h2) : Shape h2 h1 :=
  ⟨a.lists.symm, fun r => (a.objs r).symm⟩

theorem Shape.get {h h' : Heap A K} (s : Shape h h') {r : Ref} {o : Obj A K}
    (ho : h.objs[r]? = some o) : ∃ m, h'.objs[r]? = some (o.withMode m) := by
  have := s.objs r
  rw [ho] at this
  cases hh : h'.objs[r]? with
  | none => rw [hh] at this; simp at this
  | some o' =>
    rw [hh] at this
    simp only [Option.map_some, Option.some.injEq] at this
    refine ⟨o'.mode, ?_⟩
    have h2 : o' = (o'.withMode .off).withMode o'.mode := by
      rw [withMode_withMode, withMode_self]
    rw [this, withMode_withMode] at h2
    rw [← h2]

theorem part_shape {h h' : Heap A K} (s : Shape h h') {x y : Ref} (p : Part h x y) :
    Part h' x y := by
  rcases p with ⟨l, m, ms, h1, h2, h3⟩ | ⟨c, m, h1⟩
  · obtain ⟨m', h4⟩ := s.get h1
    exact Or.inl ⟨l, m', ms, h4, by rw [s.lists]; exact h2, h3⟩
  · obtain ⟨m', h4⟩ := s.get h1
    exact Or.inr ⟨c, m', h4⟩

theorem within_shape {h h' : Heap A K} (s : Shape h h') {x y : Ref} (w : Within h x y) :
    Within h' x y := within_mono (fun _ _ => part_shape s) w

theorem store_shape (h : Heap A K) (r : Ref) (m : Mode) : Shape h (h.store r m) := by
  unfold Heap.store
  split
  · rename_i o ho
    refine ⟨rfl, fun x => ?_⟩
    by_cases hx : r = x
    · subst hx
      obtain ⟨hi, -⟩ := List.getElem?_eq_some_iff.1 ho
      simp only [List.getElem?_set, hi, if_true]
      rw [ho]
      simp [withMode_withMode]
    · simp only
      rw [List.getElem?_set_ne hx]
  · exact .refl h

theorem store_same (h : Heap A K) {r : Ref} (m : Mode) {o : Obj A K} (ho : h.objs[r]? = some o) :
    (h.store r m).modeOf r = some m := by
  obtain ⟨hi, -⟩ := List.getElem?_eq_some_iff.1 ho
  unfold Heap.store Heap.modeOf
  rw [ho]
  simp [hi, withMode_mode]

theorem store_other (h : Heap A K) {r x : Ref} (m : Mode) (hx : r ≠ x) :
    (h.store r m).modeOf x = h.modeOf x := by
  unfold Heap.store Heap.modeOf
  split
  · simp only
    rw [List.getElem?_set_ne hx]
  · rfl

/-- What the setter does. -/
structure Sets (h h' : Heap A K) (rs : List Ref) (m : Mode) : Prop where
  shape : Shape h h'
  sets : ∀ r ∈ rs, ∀ x, Within h r x → h'.modeOf x = some m
  only : ∀ x, h'.modeOf x = h.modeOf x ∨ (h'.modeOf x = some m ∧ ∃ r ∈ rs, Within h r x)

theorem setMode_spec : ∀ (n : Nat) (h : Heap A K) (rs : List Ref) (m : Mode) (h' : Heap A K),
    h.setMode n rs m = some h' →
    (∀ (l : ListRef) (x : Ref) m, h.objs[x]? = some (.sum l m) → ∃ ms, h.lists[l]? = some ms) → Sets h h' rs m
  | 0, _, _, _, _, e, _ => by simp [Heap.setMode] at e
  | n + 1, h, [], m, h', e, _ => by
    simp only [Heap.setMode, Option.some.injEq] at e
    subst e
    exact ⟨.refl _, by simp, fun _ => Or.inl rfl⟩
  | n + 1, h, r :: rs, m, h', e, hd => by
    have sh := store_shape h r m
    have hd0 : ∀ h' : Heap A K, Shape h h' → ∀ (l : ListRef) (x : Ref) m, h'.objs[x]? = some (.sum l m) →
        ∃ ms, h'.lists[l]? = some ms := by
      intro h' s l x m' hx
      obtain ⟨m2, h2⟩ := s.symm.get hx
      rw [s.lists]
      exact hd l x m2 h2
    -- the common last step
    have last : ∀ (o : Obj A K) (ps : List Ref) (h1 : Heap A K), h.objs[r]? = some o →
        (∀ y, Part h r y → y ∈ ps) → (∀ y ∈ ps, Part h r y) →
        Sets (h.store r m) h1 ps m → h1.setMode n rs m = some h' → Sets h h' (r :: rs) m := by
      intro o ps h1 ho hps hps' s1 e1
      have s2 := setMode_spec n h1 rs m h' e1 (hd0 _ (sh.trans s1.shape))
      have keep : ∀ x, h1.modeOf x = some m → h'.modeOf x = some m := by
        intro x hx
        rcases s2.only x with h3 | h3
        · rw [h3, hx]
        · exact h3.1
      refine ⟨(sh.trans s1.shape).trans s2.shape, ?_, ?_⟩
      · intro y hy x hw
        rcases List.mem_cons.1 hy with rfl | hy
        · refine keep x ?_
          rcases Relation.ReflTransGen.cases_head hw with rfl | ⟨z, hz, hw'⟩
          · rcases s1.only y with h3 | h3
            · rw [h3, store_same h m ho]
            · exact h3.1
          · exact s1.sets z (hps z hz) x (within_shape sh hw')
        · exact s2.sets y hy x (within_shape (sh.trans s1.shape) hw)
      · intro x
        rcases s2.only x with h3 | ⟨h3, y, hy, hw⟩
        · rcases s1.only x with h4 | ⟨h4, y, hy, hw⟩
          · by_cases hx : r = x
            · subst hx
              exact Or.inr ⟨by rw [h3, h4, store_same h m ho], r, by simp, .refl⟩
            · exact Or.inl (by rw [h3, h4, store_other h m hx])
          · exact Or.inr ⟨by rw [h3, h4], r, by simp,
              .head (hps' y hy) (within_shape sh.symm hw)⟩
        · exact Or.inr ⟨h3, y, by simp [hy], within_shape (sh.trans s1.shape).symm hw⟩
    unfold Heap.setMode at e
    split at e
    · rename_i a m' ho
      refine last _ [] _ ho ?_ (by simp) ⟨.refl _, by simp, fun _ => Or.inl rfl⟩ e
      rintro y (⟨l, m2, ms, h2, -⟩ | ⟨c, m2, h2⟩) <;> rw [ho] at h2 <;> cases h2
    · rename_i l m' ho
      obtain ⟨ms, hms⟩ := hd l r m' ho
      cases h1e : Heap.setMode n (h.store r m) (h.lists.getD l []) m with
      | none => rw [h1e] at e; simp at e
      | some h1 =>
        rw [h1e] at e
        have s1 := setMode_spec n _ _ m h1 h1e (hd0 _ sh)
        refine last _ _ h1 ho ?_ ?_ s1 e
        · rintro y (⟨l2, m2, ms2, h2, h3, h4⟩ | ⟨c, m2, h2⟩)
          · rw [ho] at h2; cases h2
            simpa [List.getD_eq_getElem?_getD, h3] using h4
          · rw [ho] at h2; cases h2
        · intro y hy
          refine Or.inl ⟨l, m', ms, ho, hms, ?_⟩
          simpa [List.getD_eq_getElem?_getD, hms] using hy
    · rename_i p c m' ho
      cases h1e : Heap.setMode n (h.store r m) [p] m with
      | none => rw [h1e] at e; simp at e
      | some h1 =>
        rw [h1e] at e
        have s1 := setMode_spec n _ _ m h1 h1e (hd0 _ sh)
        refine last _ _ h1 ho ?_ ?_ s1 e
        · rintro y (⟨l2, m2, ms2, h2, h3, h4⟩ | ⟨c, m2, h2⟩)
          · rw [ho] at h2; cases h2
          · rw [ho] at h2; cases h2; simp
        · intro y hy
          simp only [List.mem_singleton] at hy
          subst hy
          exact Or.inr ⟨c, m', ho⟩
    · simp at e

/-- Evaluation after settings were changed. -/
theorem eval_shape {h h' : Heap A K} (s : Shape h h') {o o' : Option Mode} {n : Nat}
    {rs : List Ref} {v : V} (e : Eval f h o n rs v)
    (hm : ∀ r ∈ rs, ∀ x, Within h r x → ∀ m m', h.modeOf x = some m → h'.modeOf x = some m' →
      o.getD m = o'.getD m') : Eval f h' o' n rs v := by
  induction e with
  | nil => exact .nil
  | @plain r rs a m _ _ hr _ ih =>
    obtain ⟨m', h1⟩ := s.get hr
    have h2 : o.getD m = o'.getD m' := hm r (by simp) r .refl m m' (by simp [Heap.modeOf, hr, Obj.mode])
      (by simp [Heap.modeOf, h1, withMode_mode])
    rw [h2]
    exact .plain h1 (ih fun y hy => hm y (by simp [hy]))
  | @sum r rs l m ms _ _ _ _ hr hl _ _ ih1 ih2 =>
    obtain ⟨m', h1⟩ := s.get hr
    refine .sum h1 (by rw [s.lists]; exact hl) (ih1 fun y hy x hw => ?_)
      (ih2 fun y hy => hm y (by simp [hy]))
    exact hm r (by simp) x (.head (Or.inl ⟨l, m, ms, hr, hl, hy⟩) hw)
  | @scaled r rs p c m _ _ _ _ hr _ _ ih1 ih2 =>
    obtain ⟨m', h1⟩ := s.get hr
    refine .scaled h1 (ih1 fun y hy x hw => ?_) (ih2 fun y hy => hm y (by simp [hy]))
    simp only [List.mem_singleton] at hy; subst hy
    exact hm r (by simp) x (.head (Or.inr ⟨c, m, hr⟩) hw)

/-! ### Values of sums -/

/-- Every sum has its list in memory. -/
def Heap.Ok (h : Heap A K) : Prop :=
  ∀ (l : ListRef) (x : Ref) m, h.objs[x]? = some (.sum l m) → ∃ ms, h.lists[l]? = some ms

theorem eval_obj {h : Heap A K} {o : Option Mode} {n : Nat} {r : Ref} {v : V}
    (e : Eval f h o n [r] v) : ∃ ob, h.objs[r]? = some ob := by
  cases e <;> exact ⟨_, by assumption⟩

/-- `b` can be appended to the list of `a` without closing a circle. -/
def Addable (h : Heap A K) (a b : Ref) : Prop :=
  ∀ la m, h.objs[a]? = some (.sum la m) → (∃ lb m', h.objs[b]? = some (.sum lb m')) ∨ ¬ Uses h b la

theorem join_total {h : Heap A K} {a b : Ref} {o : Option Mode} {na nb : Nat} {va vb : V}
    (ea : Eval f h o na [a] va) (eb : Eval f h o nb [b] vb) :
    ∃ h1 l, h.join a b = some (h1, l) := by
  obtain ⟨oa, ha⟩ := eval_obj ea
  obtain ⟨ob, hb⟩ := eval_obj eb
  unfold Heap.join
  rw [ha, hb]
  cases oa <;> cases ob <;> exact ⟨_, _, rfl⟩

theorem join_objs {h : Heap A K} {a b : Ref} {h1 : Heap A K} {l : ListRef}
    (hj : h.join a b = some (h1, l)) : h1.objs = h.objs := by
  unfold Heap.join at hj
  split at hj
  · rename_i oa ob _ _
    cases oa <;> cases ob <;> simp only [Obj.asSum, Option.some.injEq] at hj <;> cases hj <;> rfl
  · simp at hj

theorem join_value {h : Heap A K} {a b : Ref} {h1 : Heap A K} {l : ListRef}
    (hok : h.Ok) (hj : h.join a b = some (h1, l)) (hs : Addable h a b)
    {o : Option Mode} {na nb : Nat} {va vb : V}
    (ea : Eval f h o na [a] va) (eb : Eval f h o nb [b] vb) :
    ∃ ms n, h1.lists[l]? = some ms ∧ Eval f h1 o n ms (va + vb) := by
  by_cases hc : (∀ la m, h.objs[a]? ≠ some (.sum la m)) ∨ ∃ lb m, h.objs[b]? = some (.sum lb m)
  · obtain ⟨hx, ms, n, h2, h3, -⟩ := join_copies hj hc ea eb
    exact ⟨ms, n, h2, eval_ext hx h3⟩
  · push Not at hc
    obtain ⟨⟨la, m, ha⟩, hb⟩ := hc
    obtain ⟨ob, hob⟩ := eval_obj eb
    have hj' := join_in_place ha hob (fun lb m' hh => hb lb m' (hh ▸ hob))
    rw [hj] at hj'
    cases hj'
    obtain ⟨ms, hl⟩ := hok l a m ha
    have hub : ¬ Uses h b l := (hs l m ha).resolve_left (fun ⟨lb, m', hh⟩ => hb lb m' hh)
    obtain ⟨n, e1⟩ := (eval_sum_iff ha hl).1 ⟨_, ea⟩
    refine ⟨ms ++ [b], _, appendTo_lists hl b, eval_append
      (eval_appendTo e1 (fun y hy => member_not_uses ha hl ea hy))
      (eval_appendTo eb (by simpa using hub))⟩

theorem join_ok {h : Heap A K} {a b : Ref} {h1 : Heap A K} {l : ListRef}
    (hok : h.Ok) (hj : h.join a b = some (h1, l)) : h1.Ok := by
  intro l' x m hx
  rw [join_objs hj] at hx
  obtain ⟨ms, hl⟩ := hok l' x m hx
  have h0 := List.getElem?_eq_some_iff.1 hl
  have key : l' < h1.lists.length := by
    unfold Heap.join at hj
    split at hj
    · rename_i oa ob _ _
      obtain ⟨hi, -⟩ := h0
      cases oa <;> cases ob <;> simp only [Obj.asSum, Option.some.injEq] at hj <;> cases hj <;>
        simp only [Heap.newList, Heap.appendTo, List.length_append, List.length_set,
          List.length_singleton] <;>
        first
          | exact hi
          | exact Nat.lt_succ_of_lt hi
          | exact Nat.lt_succ_of_lt (Nat.lt_succ_of_lt hi)
    · simp at hj
  exact ⟨_, List.getElem?_eq_getElem key⟩

theorem newObj_ok {h : Heap A K} (hok : h.Ok) {o : Obj A K}
    (ho : ∀ l m, o = .sum l m → ∃ ms, h.lists[l]? = some ms) : (h.newObj o).1.Ok := by
  intro l x m hx
  simp only [Heap.newObj] at hx ⊢
  rw [List.getElem?_append] at hx
  split at hx
  · exact hok l x m hx
  · rw [List.getElem?_singleton] at hx
    split at hx
    · exact ho l m (Option.some.inj hx)
    · simp at hx

theorem newObj_get (h : Heap A K) (o : Obj A K) :
    (h.newObj o).1.objs[(h.newObj o).2]? = some o := by
  simp [Heap.newObj]

theorem shape_ok {h h' : Heap A K} (s : Shape h h') (hok : h.Ok) : h'.Ok := by
  intro l x m hx
  obtain ⟨m2, h2⟩ := s.symm.get hx
  rw [s.lists]
  exact hok l x m2 h2

/-- The setter returns on everything that can be evaluated. -/
theorem setMode_total {h : Heap A K} {o : Option Mode} {n : Nat} {rs : List Ref} {v : V}
    (e : Eval f h o n rs v) : ∀ (k : Nat) (h' : Heap A K) (m : Mode), n < k → Shape h h' → h.Ok →
      ∃ h'', h'.setMode k rs m = some h'' := by
  induction e with
  | nil =>
    intro k h' m hk s hok
    obtain ⟨k, rfl⟩ := Nat.exists_eq_succ_of_ne_zero (by omega : k ≠ 0)
    exact ⟨h', rfl⟩
  | @plain r rs a m0 n _ hr _ ih =>
    intro k h' m hk s hok
    obtain ⟨k, rfl⟩ := Nat.exists_eq_succ_of_ne_zero (by omega : k ≠ 0)
    obtain ⟨m1, h1⟩ := s.get hr
    obtain ⟨h2, e2⟩ := ih k (h'.store r m) m (by omega) (s.trans (store_shape h' r m)) hok
    refine ⟨h2, ?_⟩
    unfold Heap.setMode
    rw [h1]
    exact e2
  | @sum r rs l m0 ms n _ k0 _ hr hl _ _ ih1 ih2 =>
    intro k h' m hk s hok
    obtain ⟨k, rfl⟩ := Nat.exists_eq_succ_of_ne_zero (by omega : k ≠ 0)
    obtain ⟨m1, h1⟩ := s.get hr
    have s1 := s.trans (store_shape h' r m)
    obtain ⟨h2, e2⟩ := ih1 k (h'.store r m) m (by omega) s1 hok
    have s2 := (setMode_spec _ _ _ _ _ e2 (shape_ok s1 hok)).shape
    obtain ⟨h3, e3⟩ := ih2 k h2 m (by omega) (s1.trans s2) hok
    refine ⟨h3, ?_⟩
    have h4 : h'.lists.getD l [] = ms := by simp [List.getD_eq_getElem?_getD, s.lists, hl]
    unfold Heap.setMode
    rw [h1]
    simp only [Obj.withMode, h4]
    rw [e2, Option.bind_some, e3]
  | @scaled r rs p c m0 n _ k0 _ hr _ _ ih1 ih2 =>
    intro k h' m hk s hok
    obtain ⟨k, rfl⟩ := Nat.exists_eq_succ_of_ne_zero (by omega : k ≠ 0)
    obtain ⟨m1, h1⟩ := s.get hr
    have s1 := s.trans (store_shape h' r m)
    obtain ⟨h2, e2⟩ := ih1 k (h'.store r m) m (by omega) s1 hok
    have s2 := (setMode_spec _ _ _ _ _ e2 (shape_ok s1 hok)).shape
    obtain ⟨h3, e3⟩ := ih2 k h2 m (by omega) (s1.trans s2) hok
    refine ⟨h3, ?_⟩
    unfold Heap.setMode
    rw [h1]
    simp only [Obj.withMode]
    rw [e2, Option.bind_some, e3]

/-- The setter never returns on something that contains itself. -/
theorem setMode_cycle : ∀ (n : Nat) (h : Heap A K) (rs : List Ref) (m : Mode) (x y z : Ref),
    h.Ok → x ∈ rs → Within h x y → Part h y z → Within h z y → h.setMode n rs m = none
  | 0, _, _, _, _, _, _, _, _, _, _, _ => rfl
  | n + 1, h, [], _, _, _, _, _, hx, _, _, _ => by simp at hx
  | n + 1, h, r :: rs, m, x, y, z, hok, hx, hw, hp, hc => by
    have sh := store_shape h r m
    have rest : ∀ h' : Heap A K, Shape h h' → x ∈ rs → h'.setMode n rs m = none := fun h' s hx' =>
      setMode_cycle n h' rs m x y z (shape_ok s hok) hx' (within_shape s hw) (part_shape s hp)
        (within_shape s hc)
    have inner : ∀ ps : List Ref, (∀ w, Part h r w → w ∈ ps) → x = r →
        (h.store r m).setMode n ps m = none := by
      rintro ps hps rfl
      obtain ⟨w, hw1, hw2⟩ : ∃ w, Part h x w ∧ Within h w y := by
        rcases Relation.ReflTransGen.cases_head hw with rfl | ⟨w, h1, h2⟩
        · exact ⟨z, hp, hc⟩
        · exact ⟨w, h1, h2⟩
      exact setMode_cycle n _ ps m w y z (shape_ok sh hok) (hps w hw1) (within_shape sh hw2)
        (part_shape sh hp) (within_shape sh hc)
    unfold Heap.setMode
    split
    · rename_i a m' ho
      rcases List.mem_cons.1 hx with hx | hx
      · subst hx
        exfalso
        rcases Relation.ReflTransGen.cases_head hw with rfl | ⟨w, h1, -⟩
        · rcases hp with ⟨l, m2, ms, h2, -⟩ | ⟨c, m2, h2⟩ <;> rw [ho] at h2 <;> cases h2
        · rcases h1 with ⟨l, m2, ms, h2, -⟩ | ⟨c, m2, h2⟩ <;> rw [ho] at h2 <;> cases h2
      · exact rest _ sh hx
    · rename_i l m' ho
      rcases List.mem_cons.1 hx with hx | hx
      · rw [inner (h.lists.getD l []) ?_ hx, Option.bind_none]
        rintro w (⟨l2, m2, ms2, h2, h3, h4⟩ | ⟨c, m2, h2⟩)
        · rw [ho] at h2; cases h2
          simpa [List.getD_eq_getElem?_getD, h3] using h4
        · rw [ho] at h2; cases h2
      · cases h1e : Heap.setMode n (h.store r m) (h.lists.getD l []) m with
        | none => rfl
        | some h1 =>
          rw [Option.bind_some]
          exact rest _ (sh.trans (setMode_spec _ _ _ _ _ h1e (shape_ok sh hok)).shape) hx
    · rename_i p c m' ho
      rcases List.mem_cons.1 hx with hx | hx
      · rw [inner [p] ?_ hx, Option.bind_none]
        rintro w (⟨l2, m2, ms2, h2, h3, h4⟩ | ⟨c, m2, h2⟩)
        · rw [ho] at h2; cases h2
        · rw [ho] at h2; cases h2; simp
      · cases h1e : Heap.setMode n (h.store r m) [p] m with
        | none => rfl
        | some h1 =>
          rw [Option.bind_some]
          exact rest _ (sh.trans (setMode_spec _ _ _ _ _ h1e (shape_ok sh hok)).shape) hx
    · rfl

/-- Everything a `PotentialSum` constructor does, for a list that can be evaluated. -/
theorem newSum_spec {h : Heap A K} (hok : h.Ok) {l : ListRef} {ms : List Ref}
    (hl : h.lists[l]? = some ms) {k : Nat} {h' : Heap A K} {r : Ref}
    (hn : h.newSum k l = some (h', r)) :
    Sets (h.newObj (.sum l (h.jointMode ms))).1 h' [r] (h.jointMode ms) ∧
      r = h.objs.length ∧ h'.Ok := by
  have h0 : h.lists.getD l [] = ms := by simp [List.getD_eq_getElem?_getD, hl]
  unfold Heap.newSum at hn
  rw [h0] at hn
  have hok2 : (h.newObj (.sum l (h.jointMode ms))).1.Ok :=
    newObj_ok hok (fun l' m e => by cases e; exact ⟨ms, hl⟩)
  cases e : (h.newObj (.sum l (h.jointMode ms))).1.setMode k [h.objs.length] (h.jointMode ms) with
  | none => simp [Heap.newObj] at hn e; simp [e] at hn
  | some h2 =>
    have hn2 : (h2, h.objs.length) = (h', r) := by
      simp only [Heap.newObj] at hn e
      simpa [e] using hn
    cases hn2
    have s := setMode_spec _ _ _ _ _ e hok2
    exact ⟨s, rfl, shape_ok s.shape hok2⟩

end Verif.Composite
