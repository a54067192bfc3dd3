/-
Lemmas on dictionaries and on the table of binding energies.
-/
import Verif.Model.Elements
import Mathlib.Data.List.Nodup
import Mathlib.Tactic.Linarith

set_option autoImplicit false

namespace Verif.Elements

section Dict

variable {α β : Type}

theorem mem_keys_dictSet [DecidableEq α] (d : List (α × β)) (k : α) (v : β) (x : α) :
    x ∈ (dictSet d k v).map Prod.fst ↔ x = k ∨ x ∈ d.map Prod.fst := by
  induction d with
  | nil => simp [dictSet]
  | cons p d ih =>
    obtain ⟨k', v'⟩ := p
    by_cases h : k' = k
    · subst h; simp [dictSet]
    · simp only [dictSet, if_neg h, List.map_cons, List.mem_cons, ih]; tauto

theorem dictSet_of_not_mem [DecidableEq α] (d : List (α × β)) (k : α) (v : β)
    (h : k ∉ d.map Prod.fst) : dictSet d k v = d ++ [(k, v)] := by
  induction d with
  | nil => rfl
  | cons p d ih =>
    obtain ⟨k', v'⟩ := p
    simp only [List.map_cons, List.mem_cons, not_or] at h
    simp only [dictSet, if_neg (Ne.symm h.1), ih h.2, List.cons_append]

theorem length_dictSet_of_mem [DecidableEq α] (d : List (α × β)) (k : α) (v : β)
    (h : k ∈ d.map Prod.fst) : (dictSet d k v).length = d.length := by
  induction d with
  | nil => simp at h
  | cons p d ih =>
    obtain ⟨k', v'⟩ := p
    by_cases hk : k' = k
    · subst hk; simp [dictSet]
    · simp only [List.map_cons, List.mem_cons] at h
      simp only [dictSet, if_neg hk, List.length_cons]
      rw [ih (h.resolve_left (Ne.symm hk))]

theorem length_fold [DecidableEq β] (d : List (α × β)) (o : List (β × α)) :
    (d.foldl (fun o kv => dictSet o kv.2 kv.1) o).length ≤ o.length + d.length := by
  induction d generalizing o with
  | nil => simp
  | cons p d ih =>
    simp only [List.foldl_cons, List.length_cons]
    refine (ih _).trans ?_
    by_cases h : p.2 ∈ o.map Prod.fst
    · rw [length_dictSet_of_mem _ _ _ h]; omega
    · rw [dictSet_of_not_mem _ _ _ h]; simp; omega

theorem fold_full [DecidableEq β] (d : List (α × β)) (o : List (β × α)) :
    (d.foldl (fun o kv => dictSet o kv.2 kv.1) o).length = o.length + d.length ↔
      (d.map Prod.snd).Nodup ∧ ∀ x ∈ d.map Prod.snd, x ∉ o.map Prod.fst := by
  induction d generalizing o with
  | nil => simp
  | cons p d ih =>
    simp only [List.foldl_cons, List.length_cons]
    by_cases h : p.2 ∈ o.map Prod.fst
    · have := length_fold d (dictSet o p.2 p.1)
      rw [length_dictSet_of_mem _ _ _ h] at this
      constructor
      · intro e; omega
      · rintro ⟨_, h2⟩
        exact absurd h (h2 _ (by simp))
    · have := ih (dictSet o p.2 p.1)
      have e : (dictSet o p.2 p.1).length = o.length + 1 := by
        rw [dictSet_of_not_mem _ _ _ h]; simp
      rw [e] at this
      rw [show o.length + (d.length + 1) = o.length + 1 + d.length by omega, this]
      simp only [mem_keys_dictSet, List.map_cons, List.nodup_cons, List.mem_cons, not_or]
      constructor
      · rintro ⟨h1, h2⟩
        refine ⟨⟨fun hm => (h2 _ hm).1 rfl, h1⟩, ?_⟩
        rintro x (rfl | hx)
        · exact h
        · exact (h2 x hx).2
      · rintro ⟨⟨h1, h2⟩, h3⟩
        refine ⟨h2, fun x hx => ⟨?_, h3 x (Or.inr hx)⟩⟩
        rintro rfl
        exact h1 hx

theorem fold_eq [DecidableEq β] (d : List (α × β)) (o : List (β × α))
    (h1 : (d.map Prod.snd).Nodup) (h2 : ∀ x ∈ d.map Prod.snd, x ∉ o.map Prod.fst) :
    d.foldl (fun o kv => dictSet o kv.2 kv.1) o = o ++ d.map Prod.swap := by
  induction d generalizing o with
  | nil => simp
  | cons p d ih =>
    have hp : p.2 ∉ o.map Prod.fst := h2 _ (by simp)
    simp only [List.map_cons, List.nodup_cons] at h1
    rw [List.foldl_cons, ih _ h1.2, dictSet_of_not_mem _ _ _ hp]
    · simp [Prod.swap]
    · intro x hx hm
      rw [mem_keys_dictSet] at hm
      rcases hm with rfl | hm
      · exact h1.1 hx
      · exact h2 x (by simp only [List.map_cons, List.mem_cons]; exact Or.inr hx) hm

theorem lookup_mem [DecidableEq α] (d : List (α × β)) (k : α) (v : β)
    (h : d.lookup k = some v) : (k, v) ∈ d := by
  induction d with
  | nil => simp at h
  | cons p d ih =>
    obtain ⟨k', v'⟩ := p
    simp only [List.lookup_cons] at h
    by_cases hk : k = k'
    · subst hk; simp at h; subst h; simp
    · have : (k == k') = false := by simpa using hk
      rw [this] at h
      exact List.mem_cons_of_mem _ (ih h)

theorem lookup_iff_mem [DecidableEq α] (d : List (α × β)) (hn : (d.map Prod.fst).Nodup) (k : α)
    (v : β) : d.lookup k = some v ↔ (k, v) ∈ d := by
  refine ⟨lookup_mem d k v, ?_⟩
  induction d with
  | nil => simp
  | cons p d ih =>
    obtain ⟨k', v'⟩ := p
    simp only [List.map_cons, List.nodup_cons] at hn
    intro h
    rw [List.lookup_cons]
    rcases List.mem_cons.1 h with h' | h'
    · simp at h'; simp [h'.1, h'.2]
    · have : k ≠ k' := by
        rintro rfl
        exact hn.1 (List.mem_map.2 ⟨(k, v), h', rfl⟩)
      have : (k == k') = false := by simpa using this
      rw [this]
      exact ih hn.2 h'

theorem lookup_none [DecidableEq α] (d : List (α × β)) (k : α) :
    d.lookup k = none ↔ k ∉ d.map Prod.fst := by
  induction d with
  | nil => simp
  | cons p d ih =>
    obtain ⟨k', v'⟩ := p
    rw [List.lookup_cons]
    by_cases hk : k = k'
    · subst hk; simp
    · have : (k == k') = false := by simpa using hk
      rw [this]
      simp [ih, hk]

end Dict

/-! ### Filling the table -/

/-- The entry of `es` for the orbital with index `o`. -/
def orbitalEntry (es : List (String × Nat)) (o : Nat) : Option Nat :=
  (es.find? fun oe => decide (orbitalMap.lookup oe.1 = some o)).map (·.2)

/-- No orbital is listed twice in `es`, and all are known. -/
def goodIon (es : List (String × Nat)) : Bool :=
  decide ((es.map fun oe => orbitalMap.lookup oe.1).Nodup) &&
    es.all fun oe => (orbitalMap.lookup oe.1).isSome

theorem fillIon_other (Z c : Nat) (es : List (String × Nat)) (t : Table) (Z' c' o : Nat)
    (h : ¬ (Z' = Z ∧ c' = c)) : fillIon Z c t es Z' c' o = t Z' c' o := by
  induction es generalizing t with
  | nil => rfl
  | cons p es ih =>
    unfold fillIon at ih ⊢
    rw [List.foldl_cons, ih]
    cases List.lookup p.1 orbitalMap with
    | none => rfl
    | some i => exact if_neg (by tauto)

theorem fillIon_missing (Z c : Nat) (es : List (String × Nat)) (t : Table) (o : Nat)
    (h : ∀ oe ∈ es, orbitalMap.lookup oe.1 ≠ some o) : fillIon Z c t es Z c o = t Z c o := by
  induction es generalizing t with
  | nil => rfl
  | cons p es ih =>
    unfold fillIon at ih ⊢
    rw [List.foldl_cons, ih _ fun oe ho => h oe (List.mem_cons_of_mem _ ho)]
    cases hi : List.lookup p.1 orbitalMap with
    | none => rfl
    | some i =>
      refine if_neg ?_
      rintro ⟨_, _, rfl⟩
      exact h p (by simp) hi

theorem fillIon_self (Z c : Nat) (es : List (String × Nat)) (t : Table) (o : Nat)
    (hes : (es.map fun oe => orbitalMap.lookup oe.1).Nodup) :
    fillIon Z c t es Z c o = (orbitalEntry es o).getD (t Z c o) := by
  induction es generalizing t with
  | nil => rfl
  | cons p es ih =>
    simp only [List.map_cons, List.nodup_cons] at hes
    by_cases hp : orbitalMap.lookup p.1 = some o
    · have hrest : ∀ oe ∈ es, orbitalMap.lookup oe.1 ≠ some o := by
        intro oe ho hc
        exact hes.1 (List.mem_map.2 ⟨oe, ho, by rw [hc, hp]⟩)
      have := fillIon_missing Z c es (t.set Z c o p.2) o hrest
      unfold fillIon at this ⊢
      rw [List.foldl_cons]
      simp only [hp]
      rw [this]
      simp [orbitalEntry, hp, Table.set]
    · have hE : orbitalEntry (p :: es) o = orbitalEntry es o := by
        simp [orbitalEntry, hp]
      rw [hE]
      have key := fun t' => ih t' hes.2
      unfold fillIon at key ⊢
      rw [List.foldl_cons, key]
      congr 1
      cases hi : List.lookup p.1 orbitalMap with
      | none => rfl
      | some i =>
        refine if_neg ?_
        rintro ⟨_, _, rfl⟩
        exact hp hi

theorem fillElement_other (Z : Nat)
    (ions : List (Nat × List (String × Nat) × List (String × Nat))) (t : Table) (Z' c' o : Nat)
    (h : ¬ Z' = Z ∨ c' ∉ ions.map (·.1)) : fillElement Z t ions Z' c' o = t Z' c' o := by
  induction ions generalizing t with
  | nil => rfl
  | cons p ions ih =>
    unfold fillElement at ih ⊢
    rw [List.foldl_cons, ih]
    · apply fillIon_other
      rintro ⟨h1, h2⟩
      rcases h with h | h
      · exact h h1
      · exact h (by simp [h2])
    · rcases h with h | h
      · exact Or.inl h
      · exact Or.inr fun hm => h (by simp only [List.map_cons, List.mem_cons]; exact Or.inr hm)

theorem fillElement_self (Z : Nat)
    (ions : List (Nat × List (String × Nat) × List (String × Nat))) (t : Table) (c o : Nat)
    (hn : (ions.map (·.1)).Nodup) (hg : ∀ i ∈ ions, goodIon i.2.2 = true)
    (cfg es : List (String × Nat)) (hm : (c, cfg, es) ∈ ions) :
    fillElement Z t ions Z c o = (orbitalEntry es o).getD (t Z c o) := by
  induction ions generalizing t with
  | nil => simp at hm
  | cons p ions ih =>
    simp only [List.map_cons, List.nodup_cons] at hn
    have hrec := fun t' => ih t' hn.2 fun i hi => hg i (List.mem_cons_of_mem _ hi)
    rcases List.mem_cons.1 hm with h | h
    · have hoth := fillElement_other Z ions (fillIon Z p.1 t p.2.2) Z c o
        (Or.inr (by rw [← h] at hn; exact hn.1))
      unfold fillElement at hoth ⊢
      rw [List.foldl_cons, hoth, ← h]
      apply fillIon_self
      have := hg p (by simp)
      rw [← h] at this
      simp only [goodIon, Bool.and_eq_true, decide_eq_true_eq] at this
      exact this.1
    · have := hrec (fillIon Z p.1 t p.2.2) h
      unfold fillElement at this ⊢
      rw [List.foldl_cons, this, fillIon_other]
      rintro ⟨_, hc⟩
      exact hn.1 (List.mem_map.2 ⟨_, h, hc⟩)

/-- A row of the data file lists no charge and no orbital twice. -/
def goodRow (r : FacRow) : Bool :=
  decide ((r.2.2.map (·.1)).Nodup) && r.2.2.all fun i => goodIon i.2.2

theorem fill_other (rows : List FacRow) (t : Table) (Z c o : Nat)
    (h : ∀ r ∈ rows, r.1 = Z → c ∉ r.2.2.map (·.1)) :
    rows.foldl (fun t row => fillElement row.1 t row.2.2) t Z c o = t Z c o := by
  induction rows generalizing t with
  | nil => rfl
  | cons p rows ih =>
    rw [List.foldl_cons, ih _ fun r hr => h r (List.mem_cons_of_mem _ hr)]
    apply fillElement_other
    by_cases hp : p.1 = Z
    · exact Or.inr (h p (by simp) hp)
    · exact Or.inl fun e => hp e.symm

theorem fill_self (rows : List FacRow) (t : Table) (Z c o : Nat)
    (hn : (rows.map (·.1)).Nodup) (hg : ∀ r ∈ rows, goodRow r = true)
    (r : FacRow) (hr : r ∈ rows) (hZ : r.1 = Z) (cfg es : List (String × Nat))
    (hm : (c, cfg, es) ∈ r.2.2) :
    rows.foldl (fun t row => fillElement row.1 t row.2.2) t Z c o =
      (orbitalEntry es o).getD (t Z c o) := by
  induction rows generalizing t with
  | nil => simp at hr
  | cons p rows ih =>
    simp only [List.map_cons, List.nodup_cons] at hn
    rw [List.foldl_cons]
    rcases List.mem_cons.1 hr with h | h
    · subst h
      rw [fill_other]
      · have hgr := hg r (by simp)
        simp only [goodRow, Bool.and_eq_true, decide_eq_true_eq, List.all_eq_true] at hgr
        rw [hZ]
        exact fillElement_self Z r.2.2 t c o hgr.1 hgr.2 cfg es hm
      · intro r' hr' e
        exact absurd (List.mem_map.2 ⟨r', hr', e.trans hZ.symm⟩) hn.1
    · rw [ih _ hn.2 (fun r hr => hg r (List.mem_cons_of_mem _ hr)) h, fillElement_other]
      left
      intro e
      exact hn.1 (List.mem_map.2 ⟨r, h, hZ.trans e⟩)

end Verif.Elements
