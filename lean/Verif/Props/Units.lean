/-
Property C106: a plasma state holds the values which it was given.
-/
import Verif.Model.Units

set_option autoImplicit false

namespace Verif.Units

variable {D : Type}

/-! ### Specification -/

/-- A value, independent of the units: plain numbers have no dimension attached. -/
def Item.value : Item D → ℝ × Option D
  | .number x => (x, none)
  | .quantity m u => (m * u.size, some u.dim)

/-- The values in an array. -/
def Arr.values : Arr D → List (ℝ × Option D)
  | .plain l => l.map fun x => (x, none)
  | .unit l u => l.map fun m => (m * u.size, some u.dim)

/-- The values which are given. -/
def Arg.values : Arg D → List (ℝ × Option D)
  | .array a => a.values
  | .list l => l.map Item.value

/-- The dimension of an entry; `none` for plain numbers. -/
def Item.dim (i : Item D) : Option D := i.value.2

/-! ### Arrays -/

theorem values_length_arr (a : Arr D) : a.values.length = a.length := by
  cases a <;> simp [Arr.values, Arr.length]

theorem values_length (a : Arg D) : a.values.length = a.length := by
  cases a with
  | array a => exact values_length_arr a
  | list l => simp [Arg.values, Arg.length]

variable [DecidableEq D]

theorem mAs_value {u : Unit' D} {i : Item D} {m : ℝ} (h : i.mAs u = some m) : (m * u.size, some u.dim) = i.value := by
  cases i with
  | number x => cases h
  | quantity x v =>
    simp only [Item.mAs] at h
    split_ifs at h with hd
    cases h
    rw [Item.value, hd, div_mul_cancel₀ _ u.pos.ne']

theorem mAs_isSome (u : Unit' D) (i : Item D) : (i.mAs u).isSome ↔ i.dim = some u.dim := by
  cases i with
  | number x => simp [Item.mAs, Item.dim, Item.value]
  | quantity x v =>
    simp only [Item.mAs]
    split_ifs with hd <;> simp [Item.dim, Item.value, hd]

theorem mapM_some {α β : Type} {f : α → Option β} {l : List α} {r : List β} (h : l.mapM f = some r) :
    List.Forall₂ (fun a b => f a = some b) l r := by
  induction l generalizing r with
  | nil =>
    rw [List.mapM_nil] at h
    cases h
    exact .nil
  | cons a l ih =>
    rw [List.mapM_cons] at h
    cases ha : f a with
    | none => rw [ha] at h; cases h
    | some b =>
      cases hl : l.mapM f with
      | none => rw [ha, hl] at h; cases h
      | some bs =>
        rw [ha, hl] at h
        cases h
        exact .cons ha (ih hl)

theorem mapM_isSome {α β : Type} {f : α → Option β} {l : List α} : (l.mapM f).isSome ↔ ∀ a ∈ l, (f a).isSome := by
  induction l with
  | nil => simp
  | cons a l ih =>
    rw [List.mapM_cons]
    cases ha : f a with
    | none => simp [ha]
    | some b =>
      cases hl : l.mapM f with
      | none =>
        rw [hl] at ih
        simp only [Option.isSome_none, Bool.false_eq_true, false_iff] at ih
        simp only [List.mem_cons, forall_eq_or_imp, ha]
        simpa using ih
      | some bs =>
        rw [hl] at ih
        simp only [Option.isSome_some, true_iff] at ih
        simp only [List.mem_cons, forall_eq_or_imp, ha]
        simpa using ih

/-- C106: what is returned has the values which were given, in their order. -/
theorem toArray_values {a : Arg D} {r : Arr D} (h : toArray a = some r) : r.values = a.values := by
  cases a with
  | array a => cases h; rfl
  | list l =>
    cases l with
    | nil => cases h
    | cons i l =>
      cases i with
      | number x =>
        obtain ⟨v, hv, rfl⟩ := Option.map_eq_some_iff.1 h
        have := mapM_some hv
        show v.map (fun x => (x, none)) = (Item.number x :: l).map Item.value
        clear hv h
        generalize Item.number x :: l = k at this
        induction this with
        | nil => rfl
        | @cons a b as bs hab _ ih =>
          rw [List.map_cons, List.map_cons, ih]
          cases a with
          | number y => cases hab; rfl
          | quantity _ _ => cases hab
      | quantity m u =>
        obtain ⟨v, hv, rfl⟩ := Option.map_eq_some_iff.1 h
        have := mapM_some hv
        show v.map (fun m => (m * u.size, some u.dim)) = (Item.quantity m u :: l).map Item.value
        clear hv h
        generalize Item.quantity m u :: l = k at this
        induction this with
        | nil => rfl
        | @cons a b as bs hab _ ih => rw [List.map_cons, List.map_cons, ih, mAs_value hab]

/-- C106: an array is made exactly of non-empty lists whose entries measure the same; the units may differ. -/
theorem toArray_list_iff (l : List (Item D)) : (toArray (.list l)).isSome ↔ l ≠ [] ∧ ∀ i ∈ l, ∀ j ∈ l, i.dim = j.dim := by
  cases l with
  | nil => simp [toArray]
  | cons i l =>
    have key : (toArray (.list (i :: l))).isSome ↔ ∀ j ∈ i :: l, j.dim = i.dim := by
      cases i with
      | number x =>
        unfold toArray
        rw [Option.isSome_map, mapM_isSome]
        refine forall_congr' fun j => forall_congr' fun _ => ?_
        cases j <;> simp [Item.plain?, Item.dim, Item.value]
      | quantity m u =>
        unfold toArray
        rw [Option.isSome_map, mapM_isSome]
        exact forall_congr' fun j => forall_congr' fun _ => mAs_isSome u j
    rw [key]
    constructor
    · intro h
      exact ⟨by simp, fun a ha b hb => (h a ha).trans (h b hb).symm⟩
    · rintro ⟨-, h⟩ j hj
      exact h j hj i List.mem_cons_self

theorem toArray_length {a : Arg D} {r : Arr D} (h : toArray a = some r) : r.length = a.length := by
  rw [← values_length_arr, toArray_values h, values_length]

/-! ### Plasma states -/

theorem init_eq {n : ℕ} {Z rho : Arg D} {Te : Temp D} {Ti : Option (Arg D)} {s : State D} (h : init n Z rho Te Ti = some s) :
    (n = Z.length ∧ n = rho.length ∧ ∀ t, Ti = some t → n = t.length) ∧ s.nions = n ∧ toArray Z = some s.Zfree ∧
      toArray rho = some s.massDensity ∧ electronT Te = some s.Te ∧
      ionT n Te Ti = some s.Ti := by
  unfold init at h
  split_ifs at h with hc
  simp only [Option.bind_eq_some_iff, Option.map_eq_some_iff] at h
  obtain ⟨z, h1, r, h2, te, h3, ti, h4, rfl⟩ := h
  exact ⟨hc, rfl, h1, h2, h3, h4⟩

/-- C106: charges, densities and, if given, ion temperatures of a state are those which were given, one for each ion. -/
theorem init_values {n : ℕ} {Z rho t : Arg D} {Te : Temp D} {s : State D} (h : init n Z rho Te (some t) = some s) :
    s.Zfree.values = Z.values ∧ s.massDensity.values = rho.values ∧ s.Ti.values = t.values ∧
      s.Zfree.length = n ∧ s.massDensity.length = n ∧ s.Ti.length = n := by
  obtain ⟨⟨h1, h2, h3⟩, -, h4, h5, -, h6⟩ := init_eq h
  refine ⟨toArray_values h4, toArray_values h5, toArray_values h6, ?_, ?_, ?_⟩
  · rw [toArray_length h4, h1]
  · rw [toArray_length h5, h2]
  · rw [toArray_length h6, h3 t rfl]

/-- C106: if only one temperature is given, it is that of the electrons and of all ions. -/
theorem init_one_temperature {n : ℕ} {Z rho : Arg D} {m : ℝ} {u : Unit' D} {s : State D}
    (h : init n Z rho (.scalar m u) none = some s ∨ init n Z rho (.array [m] u) none = some s) :
    s.Te.value = (m * u.size, some u.dim) ∧ s.Ti.values = List.replicate n (m * u.size, some u.dim) := by
  rcases h with h | h <;> obtain ⟨-, -, -, -, h1, h2⟩ := init_eq h
  · rw [← Option.some.inj h1, ← Option.some.inj h2]
    exact ⟨rfl, by simp [Arr.values]⟩
  · rw [← Option.some.inj h1]
    refine ⟨rfl, ?_⟩
    simp only [ionT, defaultT] at h2
    split_ifs at h2 with hn
    · rw [← Option.some.inj h2]
      have : n = 1 := by simpa using hn.symm
      subst this
      rfl
    · rw [← Option.some.inj h2]
      simp [Arr.values]

/-- C106, false: an array of electron temperatures is taken for the ions, each of which gets another temperature, while the
electrons get the first one. -/
theorem init_temperature_array (Z rho : List ℝ) (l : List ℝ) (u v : Unit' D) {n : ℕ} (hZ : Z.length = n) (hr : rho.length = n)
    (hl : l.length = n) (hn : 2 ≤ n) :
    ∃ s, init n (.array (.plain Z)) (.array (.unit rho v)) (.array l u) none = some s ∧
      s.Ti.values = l.map (fun m => (m * u.size, some u.dim)) ∧ s.Te.value = (l.headD 0 * u.size, some u.dim) := by
  cases l with
  | nil => simp at hl; omega
  | cons m l =>
    refine ⟨⟨n, .plain Z, .unit rho v, .quantity m u, .unit (m :: l) u⟩, ?_, rfl, rfl⟩
    unfold init
    rw [if_pos ⟨hZ.symm, hr.symm, fun t ht => by cases ht⟩]
    simp only [toArray, electronT, ionT, defaultT, Option.bind_some, List.head?_cons, Option.map_some, if_pos hl]

/-- C106, false: for one ion, an array of electron temperatures of any other length is accepted; the state then has as many ion
temperatures as the array, for one ion. -/
theorem init_too_many_temperatures (z rho : ℝ) {l : List ℝ} (u v : Unit' D) (hl : 2 ≤ l.length) :
    ∃ s, init 1 (.array (.plain [z])) (.array (.unit [rho] v)) (.array l u) none = some s ∧ s.nions = 1 ∧ s.Ti.length = l.length := by
  match l, hl with
  | m :: m' :: l, _ =>
    refine ⟨⟨1, .plain [z], .unit [rho] v, .quantity m u, .unit (m :: m' :: l) u⟩, ?_, rfl, rfl⟩
    unfold init
    rw [if_pos ⟨rfl, rfl, fun t ht => by cases ht⟩]
    simp [toArray, electronT, ionT, defaultT]

/-- C106: a list is accepted as temperature of the electrons only together with temperatures of the ions. -/
theorem init_temperature_list (n : ℕ) (Z rho : Arg D) (l : List (Item D)) : init n Z rho (.list l) none = none := by
  unfold init
  split_ifs
  · simp [ionT, defaultT]
  · rfl

/-- C106: when a state is accepted: the lengths agree, and each list is not empty and measures one thing. -/
theorem init_isSome_iff (n : ℕ) (Z rho t : Arg D) (m : ℝ) (u : Unit' D) :
    (init n Z rho (.scalar m u) (some t)).isSome ↔ n = Z.length ∧ n = rho.length ∧ n = t.length ∧
      ∀ a ∈ [Z, rho, t], ∀ l, a = .list l → l ≠ [] ∧ ∀ i ∈ l, ∀ j ∈ l, i.dim = j.dim := by
  have harg : ∀ a : Arg D, (toArray a).isSome ↔ ∀ l, a = .list l → l ≠ [] ∧ ∀ i ∈ l, ∀ j ∈ l, i.dim = j.dim := by
    intro a
    cases a with
    | array a => simp [toArray]
    | list l => rw [toArray_list_iff]; simp
  have hb : ∀ a b c : Option (Arr D), (a.bind fun Z => b.bind fun rho => (electronT (Temp.scalar m u)).bind fun te =>
      c.map fun ti => (⟨n, Z, rho, te, ti⟩ : State D)).isSome ↔ a.isSome ∧ b.isSome ∧ c.isSome := by
    intro a b c
    cases a <;> cases b <;> cases c <;> simp [electronT]
  unfold init
  split_ifs with hc
  · rw [hb, harg, harg, show ionT n (Temp.scalar m u) (some t) = toArray t from rfl, harg]
    simp only [List.mem_cons, List.not_mem_nil, or_false, forall_eq_or_imp, forall_eq]
    constructor
    · intro h
      exact ⟨hc.1, hc.2.1, hc.2.2 t rfl, h⟩
    · intro h
      exact h.2.2.2
  · simp only [Option.isSome_none, Bool.false_eq_true, false_iff]
    rintro ⟨h1, h2, h3, -⟩
    exact hc ⟨h1, h2, fun t' ht => by cases ht; exact h3⟩

/-! ### Examples -/

/-- Electron volts and kilojoules, in joules. -/
noncomputable def exampleEV : Unit' String := ⟨1602176634 / 10 ^ 28, "energy", by norm_num⟩

noncomputable def exampleKJ : Unit' String := ⟨1000, "energy", by norm_num⟩

noncomputable def exampleKG : Unit' String := ⟨1, "mass", by norm_num⟩

example : ∃ r, toArray (.list [.quantity 1 exampleEV, .quantity 2 exampleKJ]) = some r ∧
    r.values = [(1602176634 / 10 ^ 28, some "energy"), (2000, some "energy")] := by
  obtain ⟨r, hr⟩ := Option.isSome_iff_exists.1 ((toArray_list_iff [.quantity 1 exampleEV, .quantity 2 exampleKJ]).2
    ⟨by simp, by simp [Item.dim, Item.value, exampleEV, exampleKJ]⟩)
  refine ⟨r, hr, ?_⟩
  rw [toArray_values hr]
  simp [Arg.values, Item.value, exampleEV, exampleKJ]
  norm_num

example : toArray (.list [.quantity 1 exampleEV, .quantity 2 exampleKG]) = none := by
  rw [← Option.not_isSome_iff_eq_none, toArray_list_iff]
  simp [Item.dim, Item.value, exampleEV, exampleKG]

example : (init 2 (.list [.number 1, .number 2]) (.list [.quantity 1 exampleKG, .quantity 3 exampleKG]) (.scalar 10 exampleEV)
    (some (.list [.quantity 1 exampleEV, .quantity 2 exampleKJ]))).isSome := by
  rw [init_isSome_iff]
  simp [Arg.length, Item.dim, Item.value, exampleEV, exampleKJ, exampleKG]

/-- C106: of several temperatures of the electrons, as a list or an array, the first is taken. -/
theorem init_first_temperature {n : ℕ} {Z rho : Arg D} {t : Option (Arg D)} {s : State D} :
    (∀ i l, init n Z rho (.list (i :: l)) t = some s → s.Te.value = i.value) ∧
      ∀ m l u, init n Z rho (.array (m :: l) u) t = some s → s.Te.value = (m * u.size, some u.dim) := by
  refine ⟨fun i l h => ?_, fun m l u h => ?_⟩ <;> obtain ⟨-, -, -, -, h1, -⟩ := init_eq h <;> rw [← Option.some.inj h1]
  rfl

end Verif.Units
