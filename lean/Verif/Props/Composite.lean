/-
Property C07: sums and multiples of IPD models and HNC potentials.
-/
import Verif.Lemmas.Composite
import Mathlib.Algebra.Module.Basic
import Mathlib.Algebra.Module.NatInt
import Mathlib.Algebra.Ring.Int.Defs

set_option autoImplicit false

namespace Verif.Composite

variable {A K V : Type} [AddCommMonoid V] {f : A → Mode → V}

/-- `x` is a sum. -/
def IsSum (h : Heap A K) (x : Ref) : Prop := ∃ l m, h.objs[x]? = some (.sum l m)

/-! ### IPD models -/

/-- There are no multiples of IPD models: `IPDModel` does not define `__mul__`. -/
def NoMultiples (h : Heap A K) : Prop := ∀ (r p : Ref) c m, h.objs[r]? ≠ some (.scaled p c m)

theorem addable_of_noMultiples {h : Heap A K} (hn : NoMultiples h) {a b : Ref} {ob : Obj A K}
    (hb : h.objs[b]? = some ob) : Addable h a b := by
  intro la m _
  cases ob with
  | sum l m' => exact Or.inl ⟨l, m', hb⟩
  | scaled p c m' => exact absurd hb (hn _ _ _ _)
  | plain x m' =>
    refine Or.inr ?_
    rintro ⟨y, m2, hw, hy⟩
    rcases Relation.ReflTransGen.cases_head hw with rfl | ⟨w, h1, -⟩
    · rw [hb] at hy; cases hy
    · rcases h1 with ⟨l, m3, ms, h2, -⟩ | ⟨c, m3, h2⟩ <;> rw [hb] at h2 <;> cases h2

/-- C07, the value of a sum of IPD models: in any memory, if `a` evaluates to `va` and `b` to `vb`
then `a + b` succeeds and evaluates to `va + vb`, whether or not `a` or `b` are sums or share
their lists with other sums. -/
theorem ipd_sum_value [SMul K V] (h : Heap A K) (hok : h.Ok) (hn : NoMultiples h) (a b : Ref)
    (va vb : V) (ha : Evals f h a va) (hb : Evals f h b vb) :
    ∃ h' r, h.addIpd a b = some (h', r) ∧ Evals f h' r (va + vb) := by
  obtain ⟨na, ea⟩ := ha
  obtain ⟨nb, eb⟩ := hb
  obtain ⟨ob, hob⟩ := eval_obj eb
  obtain ⟨h1, l, hj⟩ := join_total ea eb
  obtain ⟨ms, n, hl, e⟩ := join_value hok hj (addable_of_noMultiples hn hob) ea eb
  refine ⟨_, _, by simp only [Heap.addIpd, hj, Option.map_some]; rfl, ?_⟩
  exact (eval_sum_iff (newObj_get h1 _) ((ext_newObj h1 _).lists _ _ hl)).2
    ⟨n, eval_ext (ext_newObj h1 _) e⟩

/-- C07 (partial: unless the left operand is a sum and the right one is not).  `a + b` changes the
value of no object at all, in particular not of `a` and `b`.  What is missing is the other case,
in which the claim is false, see `ipd_sum_grows_left_operand`. -/
theorem ipd_operands_unchanged_partial [SMul K V] (h : Heap A K) (a b : Ref) (va vb : V)
    (ha : Evals f h a va) (hb : Evals f h b vb) (hc : ¬ IsSum h a ∨ IsSum h b)
    (h' : Heap A K) (r : Ref) (hr : h.addIpd a b = some (h', r)) (x : Ref) (v : V)
    (hx : Evals f h x v) : Evals f h' x v := by
  obtain ⟨na, ea⟩ := ha
  obtain ⟨nb, eb⟩ := hb
  obtain ⟨n, ex⟩ := hx
  obtain ⟨h1, l, hj⟩ := join_total ea eb
  have hc' : (∀ la m, h.objs[a]? ≠ some (.sum la m)) ∨ ∃ lb m, h.objs[b]? = some (.sum lb m) :=
    hc.imp (fun hh la m e => hh ⟨la, m, e⟩) id
  obtain ⟨hext, -⟩ := join_copies hj hc' ea eb
  simp only [Heap.addIpd, hj, Option.map_some, Option.some.injEq] at hr
  cases hr
  exact ⟨n, eval_ext (hext.trans (ext_newObj h1 _)) ex⟩

/-- C07 is false as stated.  Whenever `a` is a sum and `b` is not, `a + b` changes `a`: afterwards
`a` itself evaluates to the sum of both. -/
theorem ipd_sum_grows_left_operand [SMul K V] (h : Heap A K) (hok : h.Ok) (hn : NoMultiples h)
    (a b : Ref) (va vb : V) (ha : Evals f h a va) (hb : Evals f h b vb) (hc : IsSum h a)
    (hd : ¬ IsSum h b) :
    ∃ h' r, h.addIpd a b = some (h', r) ∧ Evals f h' a (va + vb) := by
  obtain ⟨na, ea⟩ := ha
  obtain ⟨nb, eb⟩ := hb
  obtain ⟨ob, hob⟩ := eval_obj eb
  obtain ⟨la, m, hla⟩ := hc
  have hj := join_in_place hla hob (fun lb m' hh => hd ⟨lb, m', hh ▸ hob⟩)
  obtain ⟨ms, n, hl, e⟩ := join_value hok hj (addable_of_noMultiples hn hob) ea eb
  refine ⟨_, _, by simp only [Heap.addIpd, hj, Option.map_some]; rfl, ?_⟩
  have hx := ext_newObj (h.appendTo la b) (.sum la .off)
  exact (eval_sum_iff (hx.objs _ _ hla) (hx.lists _ _ hl)).2 ⟨n, eval_ext hx e⟩

/-- C07, what is unchanged even in that case: every object that neither is nor contains a sum with
the same list as `a`. -/
theorem ipd_others_unchanged [SMul K V] (h : Heap A K) (a b : Ref) (la : ListRef) (m : Mode)
    (hla : h.objs[a]? = some (.sum la m)) (vb : V) (hb : Evals f h b vb) (hd : ¬ IsSum h b)
    (h' : Heap A K) (r : Ref) (hr : h.addIpd a b = some (h', r)) (x : Ref) (v : V)
    (hx : Evals f h x v) (hu : ¬ Uses h x la) : Evals f h' x v := by
  obtain ⟨nb, eb⟩ := hb
  obtain ⟨n, ex⟩ := hx
  obtain ⟨ob, hob⟩ := eval_obj eb
  have hj := join_in_place hla hob (fun lb m' hh => hd ⟨lb, m', hh ▸ hob⟩)
  simp only [Heap.addIpd, hj, Option.map_some, Option.some.injEq] at hr
  cases hr
  exact ⟨n, eval_ext (ext_newObj _ _) (eval_appendTo ex (by simpa using hu))⟩

/-- Four IPD models with values 1, 10, 100, 1000. -/
def fourModels : Heap Int Int :=
  ⟨[.plain 1 .off, .plain 10 .off, .plain 100 .off, .plain 1000 .off], []⟩

/-- `s = a + b; t = s + c; u = s + d`: afterwards all three of `s`, `t` and `u` evaluate to
`a + b + c + d`. -/
theorem shared_sum_witness :
    ∃ h s t u, ((fourModels.addIpd 0 1).bind fun p => (p.1.addIpd p.2 2).bind fun q =>
        (q.1.addIpd p.2 3).map fun w => (w.1, p.2, q.2, w.2)) = some (h, s, t, u) ∧
      Evals (V := Int) (fun a _ => a) h s 1111 ∧ Evals (V := Int) (fun a _ => a) h t 1111 ∧
      Evals (V := Int) (fun a _ => a) h u 1111 := by
  refine ⟨_, _, _, _, rfl, ?_, ?_, ?_⟩
  all_goals
    refine ⟨_, .cast (.sum (ms := [0, 1, 2, 3]) rfl rfl (.plain rfl (.plain rfl (.plain rfl
      (.plain rfl .nil)))) .nil) rfl rfl ?_⟩
    rfl

/-- The hypotheses of the theorems on IPD models are met by these models, for `a` and `b` plain,
and after `s = a + b` for `s` and `c`. -/
example : fourModels.Ok ∧ NoMultiples fourModels ∧
    Evals (V := Int) (fun a _ => a) fourModels 0 1 ∧ ¬ IsSum fourModels 0 := by
  have h4 : ∀ (r : Nat) o, fourModels.objs[r]? = some o → ∃ a, o = .plain a .off := by
    intro r o hr
    rcases r with _ | _ | _ | _ | r <;> simp [fourModels] at hr <;> exact ⟨_, hr.symm⟩
  refine ⟨fun l x m hx => ?_, fun r p c m hr => ?_, ⟨_, .cast (.plain (m := .off) rfl .nil) rfl rfl rfl⟩, ?_⟩
  · obtain ⟨a, ha⟩ := h4 x _ hx; cases ha
  · obtain ⟨a, ha⟩ := h4 r _ hr; cases ha
  · rintro ⟨l, m, hx⟩
    obtain ⟨a, ha⟩ := h4 0 _ hx; cases ha

/-! ### Potentials -/

theorem evalsAt_shape [SMul K V] {h h' : Heap A K} (s : Shape h h') {m : Mode} {r : Ref} {v : V} :
    EvalsAt f h m r v ↔ EvalsAt f h' m r v :=
  ⟨fun ⟨n, e⟩ => ⟨n, eval_shape s e fun _ _ _ _ _ _ _ _ => rfl⟩,
    fun ⟨n, e⟩ => ⟨n, eval_shape s.symm e fun _ _ _ _ _ _ _ _ => rfl⟩⟩

/-- C07, the value of a sum of potentials.  In any memory, `a + b` succeeds (given enough stack)
and evaluates to the sum of what `a` and `b` evaluate to with the electron treatment of the
result; here `b` must not contain a sum that has the same list as `a`. -/
theorem pot_sum_value [SMul K V] (h : Heap A K) (hok : h.Ok) (a b : Ref) (hs : Addable h a b)
    (va vb : Mode → V) (ha : ∀ m, EvalsAt f h m a (va m)) (hb : ∀ m, EvalsAt f h m b (vb m)) :
    ∃ N, ∀ k, N < k → ∃ h' r m, h.addPot k a b = some (h', r) ∧ h'.modeOf r = some m ∧
      Evals f h' r (va m + vb m) := by
  obtain ⟨na, ea⟩ := ha .off
  obtain ⟨nb, eb⟩ := hb .off
  obtain ⟨h1, l, hj⟩ := join_total ea eb
  obtain ⟨ms, n, hl, -⟩ := join_value hok hj hs ea eb
  let m := h1.jointMode ms
  obtain ⟨na, ea⟩ := ha m
  obtain ⟨nb, eb⟩ := hb m
  obtain ⟨ms', n, hl', e⟩ := join_value hok hj hs ea eb
  rw [hl] at hl'; cases hl'
  have hok1 := join_ok hok hj
  have hok2 : (h1.newObj (.sum l m)).1.Ok :=
    newObj_ok hok1 (fun l' m e => by cases e; exact ⟨ms, hl⟩)
  have e2 : Eval f (h1.newObj (.sum l m)).1 (some m) (n + 0 + 1) [h1.objs.length]
      (va m + vb m + 0) :=
    .sum (newObj_get h1 (.sum l m)) ((ext_newObj h1 _).lists _ _ hl) (eval_ext (ext_newObj h1 _) e)
      .nil
  refine ⟨n + 0 + 1, fun k hk => ?_⟩
  obtain ⟨h', hset⟩ := setMode_total e2 k _ m hk (.refl _) hok2
  have h0 : h1.lists.getD l [] = ms := by simp [List.getD_eq_getElem?_getD, hl]
  have hadd : h.addPot k a b = some (h', h1.objs.length) := by
    unfold Heap.addPot
    rw [hj, Option.bind_some]
    unfold Heap.newSum
    simp only [h0]
    change ((h1.newObj (.sum l m)).1.setMode k [h1.objs.length] m).map _ = _
    rw [hset]
    rfl
  have s := setMode_spec _ _ _ _ _ hset hok2
  refine ⟨h', _, m, hadd, s.sets _ (by simp) _ .refl, n + 0 + 1, ?_⟩
  replace e2 := e2.cast rfl rfl (add_zero _)
  refine eval_shape s.shape e2 fun y hy x hw m1 m2 _ hm2 => ?_
  rw [s.sets y hy x hw] at hm2
  cases hm2
  rfl

/-- C07 (partial: unless the left operand is a sum and the right one is not, and only if both
operands already have the same electron treatment throughout).  `a + b` changes the value of no
object.  What is missing are the two cases in which the claim is false, see
`pot_sum_grows_left_operand` and `pot_sum_changes_electrons`. -/
theorem pot_operands_unchanged_partial [SMul K V] (h : Heap A K) (hok : h.Ok) (a b : Ref)
    (va vb : V) (ha : Evals f h a va) (hb : Evals f h b vb) (hc : ¬ IsSum h a ∨ IsSum h b)
    (m : Mode) (hma : ∀ y, Within h a y → h.modeOf y = some m)
    (hmb : ∀ y, Within h b y → h.modeOf y = some m)
    (k : Nat) (h' : Heap A K) (r : Ref) (hr : h.addPot k a b = some (h', r)) (x : Ref) (v : V)
    (hx : Evals f h x v) : Evals f h' x v := by
  obtain ⟨na, ea⟩ := ha
  obtain ⟨nb, eb⟩ := hb
  obtain ⟨n, ex⟩ := hx
  obtain ⟨h1, l, hj⟩ := join_total ea eb
  have hc' : (∀ la m, h.objs[a]? ≠ some (.sum la m)) ∨ ∃ lb m, h.objs[b]? = some (.sum lb m) :=
    hc.imp (fun hh la m e => hh ⟨la, m, e⟩) id
  obtain ⟨hext, ms, n1, hl, e1, hms⟩ := join_copies hj hc' ea eb
  unfold Heap.addPot at hr
  rw [hj, Option.bind_some] at hr
  obtain ⟨s, rfl, -⟩ := newSum_spec (join_ok hok hj) hl hr
  have hobj := join_objs hj
  have hmode : ∀ y ∈ ms, ∀ z, Within h y z → h.modeOf z = some m := by
    intro y hy z hz
    rcases hms y hy with rfl | rfl | hp | hp
    · exact hma z hz
    · exact hmb z hz
    · exact hma z (.head hp hz)
    · exact hmb z (.head hp hz)
  -- whatever lies within an old object is old
  have back : ∀ (y z : Ref), Within (h1.newObj (.sum l (h1.jointMode ms))).1 y z →
      (∃ w n, Eval f h none n [y] w) → Within h y z := by
    intro y z hw
    induction hw using Relation.ReflTransGen.head_induction_on with
    | refl => intro _; exact .refl
    | head hp _ ih =>
      rename_i y y' _
      rintro ⟨w, n, e⟩
      have hp' : Part h y y' := by
        have e' := eval_ext (hext.trans (ext_newObj h1 (.sum l (h1.jointMode ms)))) e
        rcases hp with ⟨l2, m2, ms2, g1, g2, g3⟩ | ⟨c, m2, g1⟩
        · cases e with
          | plain hh _ =>
            have := (hext.trans (ext_newObj h1 (.sum l (h1.jointMode ms)))).objs _ _ hh
            rw [g1] at this; cases this
          | scaled hh _ _ =>
            have := (hext.trans (ext_newObj h1 (.sum l (h1.jointMode ms)))).objs _ _ hh
            rw [g1] at this; cases this
          | sum hh hh2 _ _ =>
            have h3 := (hext.trans (ext_newObj h1 (.sum l (h1.jointMode ms)))).objs _ _ hh
            have h4 := (hext.trans (ext_newObj h1 (.sum l (h1.jointMode ms)))).lists _ _ hh2
            rw [g1] at h3; cases h3
            rw [g2] at h4; cases h4
            exact Or.inl ⟨_, _, _, hh, hh2, g3⟩
        · cases e with
          | plain hh _ =>
            have := (hext.trans (ext_newObj h1 (.sum l (h1.jointMode ms)))).objs _ _ hh
            rw [g1] at this; cases this
          | sum hh _ _ _ =>
            have := (hext.trans (ext_newObj h1 (.sum l (h1.jointMode ms)))).objs _ _ hh
            rw [g1] at this; cases this
          | scaled hh _ _ =>
            have h3 := (hext.trans (ext_newObj h1 (.sum l (h1.jointMode ms)))).objs _ _ hh
            rw [g1] at h3; cases h3
            exact Or.inr ⟨_, _, hh⟩
      obtain ⟨n2, w2, e2, -⟩ := eval_part e hp'
      exact .head hp' (ih ⟨w2, n2, e2⟩)
  have hlt : ∀ y : Ref, (∃ o, h.objs[y]? = some o) → y ≠ h1.objs.length := by
    rintro y ⟨o, ho⟩ rfl
    rw [← hobj] at ho
    simp at ho
  have hjm : ms ≠ [] → h1.jointMode ms = m := by
    intro hne
    have hm1 : ∀ y ∈ ms, h1.modeOf y = some m := fun y hy => by
      rw [Heap.modeOf, hobj]; exact hmode y hy y .refl
    obtain ⟨y, hy⟩ := List.exists_mem_of_ne_nil ms hne
    have hany : ∀ m', ms.any (fun r => h1.modeOf r == some m') = decide (m = m') := by
      intro m'
      by_cases hh : m = m'
      · subst hh
        simpa using ⟨y, hy, hm1 y hy⟩
      · simp only [hh, decide_false, List.any_eq_false]
        intro z hz
        rw [hm1 z hz]
        simpa using hh
    unfold Heap.jointMode
    rw [hany, hany]
    cases m <;> rfl
  refine ⟨n, eval_shape s.shape
    (eval_ext (hext.trans (ext_newObj h1 (.sum l (h1.jointMode ms)))) ex) ?_⟩
  intro y hy z hz m1 m2 hm1 hm2
  simp only [List.mem_singleton] at hy; subst hy
  have hz' := back y z hz ⟨v, n, ex⟩
  obtain ⟨n3, v3, e3, -⟩ := eval_within ex hz'
  obtain ⟨oz, hoz⟩ := eval_obj e3
  have hz0 : (h1.newObj (.sum l (h1.jointMode ms))).1.modeOf z = h.modeOf z := by
    have := (hext.trans (ext_newObj h1 (.sum l (h1.jointMode ms)))).objs _ _ hoz
    simp only [Heap.modeOf, this, hoz]
  change m1 = m2
  rcases s.only z with hsame | ⟨hset, r', hr', hw'⟩
  · rw [hsame, hm1] at hm2; exact Option.some.inj hm2
  · simp only [List.mem_singleton] at hr'; subst hr'
    rcases Relation.ReflTransGen.cases_head hw' with rfl | ⟨w, hp, hw2⟩
    · exact absurd rfl (hlt _ ⟨oz, hoz⟩)
    · have hwm : w ∈ ms := by
        have hg := newObj_get h1 (.sum l (h1.jointMode ms))
        have hl2 := (ext_newObj h1 (.sum l (h1.jointMode ms))).lists _ _ hl
        rcases hp with ⟨l2, m3, ms2, g1, g2, g3⟩ | ⟨c, m3, g1⟩
        · have : (h1.newObj (.sum l (h1.jointMode ms))).2 = h1.objs.length := rfl
          rw [this] at hg
          rw [hg] at g1; cases g1
          rw [hl2] at g2; cases g2
          exact g3
        · have : (h1.newObj (.sum l (h1.jointMode ms))).2 = h1.objs.length := rfl
          rw [this] at hg
          rw [hg] at g1; cases g1
      obtain ⟨n4, v4, e4, -⟩ := eval_mem e1 hwm
      have hwz := back w z hw2 ⟨v4, n4, e4⟩
      have h5 := hmode w hwm z hwz
      rw [hset] at hm2
      rw [hz0, h5] at hm1
      rw [hjm (List.ne_nil_of_mem hwm)] at hm2
      cases hm1; cases hm2; rfl

/-- C07 is false as stated.  Whenever `a` is a sum and `b` is not, `a + b` changes `a`: afterwards
`a` itself evaluates to the sum of both, and it is evaluated with the electron treatment of the
result. -/
theorem pot_sum_grows_left_operand [SMul K V] (h : Heap A K) (hok : h.Ok) (a b : Ref)
    (hs : Addable h a b) (hc : IsSum h a) (hd : ¬ IsSum h b)
    (va vb : Mode → V) (ha : ∀ m, EvalsAt f h m a (va m)) (hb : ∀ m, EvalsAt f h m b (vb m))
    (k : Nat) (h' : Heap A K) (r : Ref) (hr : h.addPot k a b = some (h', r)) :
    ∃ m, h'.modeOf r = some m ∧ Evals f h' a (va m + vb m) := by
  obtain ⟨la, ma, hla⟩ := hc
  obtain ⟨nb, eb⟩ := hb .off
  obtain ⟨ob, hob⟩ := eval_obj eb
  have hj := join_in_place hla hob (fun lb m' hh => hd ⟨lb, m', hh ▸ hob⟩)
  obtain ⟨ms0, hl0⟩ := hok la a ma hla
  have hl := appendTo_lists hl0 b
  unfold Heap.addPot at hr
  rw [hj, Option.bind_some] at hr
  obtain ⟨s, rfl, -⟩ := newSum_spec (join_ok hok hj) hl hr
  set m := (h.appendTo la b).jointMode (ms0 ++ [b]) with hm
  obtain ⟨na, ea⟩ := ha m
  obtain ⟨nb, eb⟩ := hb m
  obtain ⟨ms', n, hl', e⟩ := join_value hok hj hs ea eb
  rw [hl] at hl'; cases hl'
  refine ⟨m, s.sets _ (by simp) _ .refl, ?_⟩
  have hx := ext_newObj (h.appendTo la b) (.sum la m)
  have hg : ((h.appendTo la b).newObj (.sum la m)).1.objs[(h.appendTo la b).objs.length]? =
      some (.sum la m) := newObj_get _ _
  obtain ⟨m', ha'⟩ := s.shape.get (hx.objs _ _ hla)
  have hl2 : h'.lists[la]? = some (ms0 ++ [b]) := by
    rw [s.shape.lists]; exact hx.lists _ _ hl
  refine (eval_sum_iff ha' hl2).2 ⟨n, ?_⟩
  refine eval_shape s.shape (eval_ext hx e) fun y hy x hw m1 m2 _ hm2 => ?_
  have hset := s.sets _ (by simp) x
    (.head (Or.inl ⟨la, m, ms0 ++ [b], hg, hx.lists _ _ hl, hy⟩) hw)
  rw [hset] at hm2
  cases hm2
  rfl

/-- C07 is false as stated, also when neither operand is a sum: adding a potential without
electrons to one with electrons turns the electrons on in both operands, so the operand without
electrons evaluates differently afterwards. -/
theorem pot_sum_changes_electrons :
    let h : Heap Unit Int := ⟨[.plain () .off, .plain () .averaged], []⟩
    let f : Unit → Mode → Int := fun _ m => if m = .off then 1 else 5
    ∃ h' r, h.addPot 5 0 1 = some (h', r) ∧ Evals f h 0 1 ∧ Evals f h' 0 5 := by
  refine ⟨_, _, rfl, ⟨_, .cast (.plain (m := .off) rfl .nil) rfl rfl ?_⟩,
    ⟨_, .cast (.plain (m := .averaged) rfl .nil) rfl rfl ?_⟩⟩ <;> rfl

/-- Adding to a sum a potential that contains a sum with the same list never returns, however deep
the stack is. -/
theorem pot_sum_never_returns (h : Heap A K) (hok : h.Ok) (a b : Ref) (la : ListRef) (ma : Mode)
    (hla : h.objs[a]? = some (.sum la ma)) (ob : Obj A K) (hob : h.objs[b]? = some ob)
    (hd : ¬ IsSum h b) (hu : Uses h b la) (k : Nat) : h.addPot k a b = none := by
  obtain ⟨z, mz, hw, hz⟩ := hu
  have hj := join_in_place hla hob (fun lb m' hh => hd ⟨lb, m', hh ▸ hob⟩)
  obtain ⟨ms0, hl0⟩ := hok la a ma hla
  have hl := appendTo_lists hl0 b
  have h0 : (h.appendTo la b).lists.getD la [] = ms0 ++ [b] := by
    simp [List.getD_eq_getElem?_getD, hl]
  unfold Heap.addPot
  rw [hj, Option.bind_some]
  unfold Heap.newSum
  simp only [h0]
  generalize (h.appendTo la b).jointMode (ms0 ++ [b]) = m
  have hok2 : ((h.appendTo la b).newObj (.sum la m)).1.Ok :=
    newObj_ok (join_ok hok hj) (fun l' m e => by cases e; exact ⟨_, hl⟩)
  have hx := ext_newObj (h.appendTo la b) (.sum la m)
  have hw2 : Within ((h.appendTo la b).newObj (.sum la m)).1 b z :=
    within_mono (fun _ _ => part_ext hx) (within_mono (fun _ _ => part_appendTo) hw)
  have hg := newObj_get (h.appendTo la b) (.sum la m)
  have := setMode_cycle k ((h.appendTo la b).newObj (.sum la m)).1
    [((h.appendTo la b).newObj (.sum la m)).2] m _ z b hok2 (List.mem_singleton.2 rfl)
    (.head (Or.inl ⟨la, m, _, hg, hx.lists _ _ hl, by simp⟩) hw2)
    (Or.inl ⟨la, mz, _, hx.objs _ _ hz, hx.lists _ _ hl, by simp⟩) hw2
  rw [this]
  rfl

/-- In particular `s + s * c` never returns, for every sum `s` and number `c`: `d` is the multiple
`s * c`. -/
theorem sum_plus_own_multiple_never_returns (h : Heap A K) (hok : h.Ok) (s d : Ref) (c : K)
    (m : Mode) (hs : IsSum h s) (hd : h.objs[d]? = some (.scaled s c m)) (k : Nat) :
    h.addPot k s d = none := by
  obtain ⟨l, ms, hl⟩ := hs
  refine pot_sum_never_returns h hok s d l ms hl _ hd ?_
    ⟨s, ms, .single (Or.inr ⟨c, m, hd⟩), hl⟩ k
  rintro ⟨l', m', e⟩
  rw [hd] at e; cases e

/-- C07, the value of a multiple: `a * c` evaluates to `c` times what `a` evaluates to with the
electron treatment of the result, also if `a` is itself a multiple. -/
theorem pot_multiple_value [Monoid K] [MulAction K V] (h : Heap A K) (hok : h.Ok) (a : Ref) (c : K)
    (va : Mode → V) (ha : ∀ m, EvalsAt f h m a (va m)) :
    ∃ N, ∀ k, N < k → ∃ h' r m, h.mulPot k a c = some (h', r) ∧ h'.modeOf r = some m ∧
      Evals f h' r (c • va m) := by
  -- what `ScaledPotential(p, d)` does
  have key : ∀ (p : Ref) (d : K) (vp : Mode → V), (∀ m, EvalsAt f h m p (vp m)) →
      ∃ N, ∀ k, N < k → ∃ h' r m, h.newScaled k p d = some (h', r) ∧ h'.modeOf r = some m ∧
        Evals f h' r (d • vp m) := by
    intro p d vp hp
    obtain ⟨n0, e0⟩ := hp .off
    obtain ⟨op, hop⟩ := eval_obj e0
    obtain ⟨n, e⟩ := hp op.mode
    have hok2 : (h.newObj (.scaled p d op.mode)).1.Ok :=
      newObj_ok hok (fun l' m e => by cases e)
    have e2 : Eval f (h.newObj (.scaled p d op.mode)).1 (some op.mode) (n + 0 + 1)
        [h.objs.length] (d • vp op.mode + 0) :=
      .scaled (newObj_get h (.scaled p d op.mode)) (eval_ext (ext_newObj h _) e) .nil
    refine ⟨n + 0 + 1, fun k hk => ?_⟩
    obtain ⟨h', hset⟩ := setMode_total e2 k _ op.mode hk (.refl _) hok2
    have hnew : h.newScaled k p d = some (h', h.objs.length) := by
      unfold Heap.newScaled
      simp only [Heap.modeOf, hop, Option.map_some]
      change ((h.newObj (.scaled p d op.mode)).1.setMode k [h.objs.length] op.mode).map _ = _
      rw [hset]
      rfl
    have s := setMode_spec _ _ _ _ _ hset hok2
    refine ⟨h', _, op.mode, hnew, s.sets _ (by simp) _ .refl, n + 0 + 1, ?_⟩
    replace e2 := e2.cast rfl rfl (add_zero _)
    refine eval_shape s.shape e2 fun y hy x hw m1 m2 _ hm2 => ?_
    rw [s.sets y hy x hw] at hm2
    cases hm2
    rfl
  obtain ⟨n0, e0⟩ := ha .off
  obtain ⟨oa, hoa⟩ := eval_obj e0
  cases oa with
  | plain x m =>
    obtain ⟨N, hN⟩ := key a c va ha
    refine ⟨N, fun k hk => ?_⟩
    unfold Heap.mulPot
    rw [hoa]
    exact hN k hk
  | sum l m =>
    obtain ⟨N, hN⟩ := key a c va ha
    refine ⟨N, fun k hk => ?_⟩
    unfold Heap.mulPot
    rw [hoa]
    exact hN k hk
  | scaled p c0 m =>
    have hp : ∀ m, ∃ u, EvalsAt f h m p u ∧ va m = c0 • u := by
      intro m'
      obtain ⟨n, e⟩ := ha m'
      generalize hv : va m' = v at e
      cases e with
      | plain hh _ => rw [hoa] at hh; cases hh
      | sum hh _ _ _ => rw [hoa] at hh; cases hh
      | scaled hh e1 e2 =>
        rw [hoa] at hh; cases hh
        cases e2
        exact ⟨_, ⟨_, e1⟩, by simp⟩
    choose u hu hcu using hp
    obtain ⟨N, hN⟩ := key p (c * c0) u hu
    refine ⟨N, fun k hk => ?_⟩
    obtain ⟨h', r, m', h1, h2, h3⟩ := hN k hk
    refine ⟨h', r, m', ?_, h2, ?_⟩
    · unfold Heap.mulPot
      rw [hoa]
      exact h1
    · rw [hcu, ← mul_smul]
      exact h3

/-- The hypotheses of the theorems on potentials are met: a sum `s` of a potential and of twice
another one, to which a third one is added. -/
def potHeap : Heap Int Int :=
  ⟨[.plain 1 .off, .plain 10 .off, .scaled 1 2 .off, .sum 0 .off, .plain 100 .off], [[0, 2]]⟩

example : potHeap.Ok ∧ IsSum potHeap 3 ∧ ¬ IsSum potHeap 4 ∧ Addable potHeap 3 4 ∧
    (∀ m, EvalsAt (V := Int) (fun a _ => a) potHeap m 3 21) ∧
    (∀ m, EvalsAt (V := Int) (fun a _ => a) potHeap m 4 100) := by
  have hns : ¬ IsSum potHeap 4 := by
    rintro ⟨l, m, e⟩; simp [potHeap] at e
  refine ⟨?_, ⟨0, .off, rfl⟩, hns, ?_, fun m => ?_, fun m => ?_⟩
  · intro l x m hx
    rcases x with _ | _ | _ | _ | _ | x <;> simp [potHeap] at hx
    obtain ⟨rfl, rfl⟩ := hx
    exact ⟨_, rfl⟩
  · intro la m _
    refine Or.inr ?_
    rintro ⟨y, m2, hw, hy⟩
    rcases Relation.ReflTransGen.cases_head hw with rfl | ⟨w, h1, -⟩
    · exact hns ⟨la, m2, hy⟩
    · rcases h1 with ⟨l, m3, ms, h2, -⟩ | ⟨c, m3, h2⟩ <;> simp [potHeap] at h2
  · refine ⟨_, .cast (.sum (ms := [0, 2]) rfl rfl (.plain rfl (.scaled rfl (.plain rfl .nil) .nil))
      .nil) rfl rfl ?_⟩
    rfl
  · exact ⟨_, .cast (.plain rfl .nil) rfl rfl rfl⟩

end Verif.Composite
