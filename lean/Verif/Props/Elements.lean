/-
Properties C40 (tables of the elements), C49 (equality), C50 (cold binding energies), C51 (electron
configurations) and C52 (binding energies of ions).
-/
import Verif.Lemmas.Elements
import Verif.Props.Interp
import Mathlib.Data.List.GetD
import Mathlib.Data.Nat.Choose.Basic
import Mathlib.Tactic.IntervalCases
import Mathlib.Tactic.NormNum

set_option autoImplicit false

namespace Verif.Elements

/-! ### C40: inverting a dictionary -/

/-- C40.  Inverting a dictionary raises exactly when two keys have the same value. -/
theorem invert_raises_iff {α β : Type} [DecidableEq β] (d : List (α × β)) :
    invertDict d = none ↔ ¬ (d.map Prod.snd).Nodup := by
  have h := fold_full d []
  simp only [List.length_nil, Nat.zero_add, List.map_nil, List.not_mem_nil, not_false_eq_true,
    implies_true, and_true] at h
  unfold invertDict
  simp only [ne_eq]
  rw [← h]
  by_cases e : d.length = (d.foldl (fun o kv => dictSet o kv.2 kv.1) []).length
  · rw [if_neg (not_not.2 e)]; simp [e.symm]
  · rw [if_pos e]; simp [Ne.symm e]

/-- C40.  In the inverted dictionary, `v` leads to `k` exactly if `k` led to `v`. -/
theorem invert_lookup {α β : Type} [DecidableEq α] [DecidableEq β] (d : List (α × β))
    (hk : (d.map Prod.fst).Nodup) (e : List (β × α)) (he : invertDict d = some e) (k : α) (v : β) :
    e.lookup v = some k ↔ d.lookup k = some v := by
  have hv : (d.map Prod.snd).Nodup := by
    by_contra hc
    rw [(invert_raises_iff d).2 hc] at he
    exact absurd he (by simp)
  have hE : e = d.map Prod.swap := by
    unfold invertDict at he
    simp only [fold_eq d [] hv (by simp), List.nil_append, List.length_map, ne_eq,
      not_true_eq_false, if_false, Option.some.injEq] at he
    exact he.symm
  subst hE
  have h1 : ((d.map Prod.swap).map Prod.fst).Nodup := by
    rw [List.map_map]; exact hv
  rw [lookup_iff_mem _ h1, lookup_iff_mem _ hk]
  simp only [List.mem_map, Prod.exists, Prod.swap_prod_mk, Prod.mk.injEq]
  constructor
  · rintro ⟨a, b, h, rfl, rfl⟩; exact h
  · intro h; exact ⟨k, v, h, rfl, rfl⟩

example : invertDict [(1, "H"), (2, "He")] = some [("H", 1), ("He", 2)] ∧
    invertDict [(1, "H"), (2, "H")] = none := by decide

/-! ### C40: look-up of elements -/

theorem symbols_keys : (symbols.map Prod.fst).Nodup := by decide +kernel

theorem symbols_values : (symbols.map Prod.snd).Nodup := by decide +kernel

theorem names_values : (names.map Prod.snd).Nodup := by decide +kernel

theorem symbols_lookup_range (n : Nat) (s : String) (h : symbols.lookup n = some s) :
    1 ≤ n ∧ n ≤ 36 := by
  have := lookup_mem _ _ _ h
  have hm : n ∈ symbols.map Prod.fst := List.mem_map.2 ⟨_, this, rfl⟩
  have : symbols.map Prod.fst = List.range' 1 36 := by decide +kernel
  rw [this, List.mem_range'] at hm
  obtain ⟨i, hi, rfl⟩ := hm
  omega

/-- All elements, in order. -/
def allElements : List Elem := (List.range 37).filterMap fun n => mkElement (.num n)

theorem elementFor_fields (Z : Nat) (s : String) (e : Elem) (h : elementFor Z s = some e) :
    e.Z = Z ∧ e.symbol = s ∧ names.lookup Z = some e.name := by
  simp only [elementFor, Option.bind_eq_bind, Option.bind_eq_some_iff] at h
  obtain ⟨a, ha, b, hb, c, hc, d, hd, f, hf, g, hg, h⟩ := h
  simp only [Option.pure_def, Option.some.injEq] at h
  subst h
  exact ⟨rfl, rfl, ha⟩

theorem sym_iff (s : String) (e : Elem) :
    mkElement (.sym s) = some e ↔ ∃ n : Nat, symbols.lookup n = some s ∧ elementFor n s = some e := by
  have hsome : ∃ inv, invertDict symbols = some inv := by
    cases h : invertDict symbols with
    | some inv => exact ⟨inv, rfl⟩
    | none => exact absurd symbols_values ((invert_raises_iff symbols).1 h)
  obtain ⟨inv, hinv⟩ := hsome
  simp only [mkElement, hinv, Option.bind_eq_bind, Option.bind_some, Option.bind_eq_some_iff]
  constructor
  · rintro ⟨n, h1, h2⟩
    exact ⟨n, (invert_lookup symbols symbols_keys inv hinv n s).1 h1, h2⟩
  · rintro ⟨n, h1, h2⟩
    exact ⟨n, (invert_lookup symbols symbols_keys inv hinv n s).2 h1, h2⟩

theorem num_iff (z : Int) (e : Elem) :
    mkElement (.num z) = some e ↔
      ∃ (n : Nat) (s : String), z = n ∧ symbols.lookup n = some s ∧ elementFor n s = some e := by
  by_cases hz : z < 0
  · simp only [mkElement, if_pos hz]
    constructor
    · intro h; simp at h
    · rintro ⟨n, s, rfl, _⟩; omega
  · simp only [mkElement, if_neg hz, Option.bind_eq_bind, Option.bind_eq_some_iff]
    constructor
    · rintro ⟨s, h1, h2⟩
      exact ⟨z.toNat, s, by omega, h1, h2⟩
    · rintro ⟨n, s, rfl, h1, h2⟩
      exact ⟨s, by simpa using h1, by simpa using h2⟩

theorem mem_allElements (i : Identifier) (e : Elem) (h : mkElement i = some e) :
    e ∈ allElements := by
  have key : ∀ (n : Nat) (s : String), symbols.lookup n = some s → elementFor n s = some e →
      e ∈ allElements := by
    intro n s h1 h2
    unfold allElements
    rw [List.mem_filterMap]
    exact ⟨n, by simp; have := symbols_lookup_range n s h1; omega,
      (num_iff n e).2 ⟨n, s, rfl, h1, h2⟩⟩
  cases i with
  | sym s => obtain ⟨n, h1, h2⟩ := (sym_iff s e).1 h; exact key n s h1 h2
  | num z => obtain ⟨n, s, _, h1, h2⟩ := (num_iff z e).1 h; exact key n s h1 h2

/-- C40.  An element created from its symbol is the one created from its atomic number, and the
other way round. -/
theorem symbol_and_number_agree (e : Elem) :
    (∀ s, mkElement (.sym s) = some e → e.symbol = s ∧ mkElement (.num e.Z) = some e) ∧
    (∀ z : Int, mkElement (.num z) = some e →
      (e.Z : Int) = z ∧ mkElement (.sym e.symbol) = some e) := by
  constructor
  · intro s h
    obtain ⟨n, h1, h2⟩ := (sym_iff s e).1 h
    obtain ⟨hZ, hs, _⟩ := elementFor_fields n s e h2
    exact ⟨hs, (num_iff _ e).2 ⟨n, s, by rw [hZ], h1, h2⟩⟩
  · intro z h
    obtain ⟨n, s, rfl, h1, h2⟩ := (num_iff z e).1 h
    obtain ⟨hZ, hs, _⟩ := elementFor_fields n s e h2
    exact ⟨by rw [hZ], (sym_iff _ e).2 ⟨n, by rw [hs]; exact h1, by rw [hs]; exact h2⟩⟩

/-- C40.  The atomic numbers of the supported elements are exactly 1 to 36. -/
theorem supported_elements (z : Int) : (mkElement (.num z)).isSome ↔ 1 ≤ z ∧ z ≤ 36 := by
  constructor
  · intro h
    obtain ⟨e, he⟩ := Option.isSome_iff_exists.1 h
    obtain ⟨n, s, rfl, h1, _⟩ := (num_iff z e).1 he
    have := symbols_lookup_range n s h1
    omega
  · rintro ⟨h1, h2⟩
    have key : ∀ n ∈ List.range 37, 1 ≤ n → (mkElement (.num (n : Nat))).isSome = true := by
      decide +kernel
    have := key z.toNat (by simp; omega) (by omega)
    rwa [show ((z.toNat : Nat) : Int) = z by omega] at this

/-- C40.  Atomic number, symbol and name each determine the element. -/
theorem element_determined (i j : Identifier) (a b : Elem) (ha : mkElement i = some a)
    (hb : mkElement j = some b) (h : a.Z = b.Z ∨ a.symbol = b.symbol ∨ a.name = b.name) :
    a = b := by
  have key : ∀ a ∈ allElements, ∀ b ∈ allElements,
      a.Z = b.Z ∨ a.symbol = b.symbol ∨ a.name = b.name → a.Z = b.Z := by decide +kernel
  have hZ := key a (mem_allElements i a ha) b (mem_allElements j b hb) h
  have num : ∀ (i : Identifier) (a : Elem), mkElement i = some a → mkElement (.num a.Z) = some a := by
    intro i a ha
    cases i with
    | sym s => exact ((symbol_and_number_agree a).1 s ha).2
    | num z =>
      have := ((symbol_and_number_agree a).2 z ha).1
      rw [this]; exact ha
  have h1 := num i a ha
  have h2 := num j b hb
  rw [hZ, h2] at h1
  exact (Option.some.inj h1).symm

/-- C40.  The mass of an element is at least that of its protons and at most 2.4 times as large. -/
theorem mass_plausible (i : Identifier) (e : Elem) (h : mkElement i = some e) :
    1000000000 * e.Z ≤ e.mass ∧ e.mass ≤ 2400000000 * e.Z := by
  have key : ∀ e ∈ allElements, 1000000000 * e.Z ≤ e.mass ∧ e.mass ≤ 2400000000 * e.Z := by
    decide +kernel
  exact key e (mem_allElements i e h)

/-! ### C40: electron configurations and statistical weights -/

/-- Angular momentum of the orbitals 1s 2s 2p 3s 3p 3d 4s 4p 4d 4f. -/
def angular : List Nat := [0, 0, 1, 0, 1, 2, 0, 1, 2, 3]

/-- Number of electrons that fit into orbital `o`. -/
def capacityOf (o : Nat) : Nat := 2 * (2 * angular.getD o 0 + 1)

/-- C40.  Each element has one configuration for each charge `c` from 0 to `Z`; it has `Z - c`
electrons and no orbital holds more than fit in. -/
theorem configurations_complete (i : Identifier) (e : Elem) (h : mkElement i = some e) :
    e.econfs.length = e.Z + 1 ∧
    ∀ c, c ≤ e.Z → (e.econfs.getD c []).length = 10 ∧ (e.econfs.getD c []).sum + c = e.Z ∧
      ∀ o, (e.econfs.getD c []).getD o 0 ≤ capacityOf o := by
  have key : ∀ e ∈ allElements, e.econfs.length = e.Z + 1 ∧
      ∀ c ∈ List.range (e.Z + 1), (e.econfs.getD c []).length = 10 ∧
        (e.econfs.getD c []).sum + c = e.Z ∧
        ∀ o ∈ List.range 10, (e.econfs.getD c []).getD o 0 ≤ capacityOf o := by decide +kernel
  obtain ⟨h1, h2⟩ := key e (mem_allElements i e h)
  refine ⟨h1, fun c hc => ?_⟩
  obtain ⟨h3, h4, h5⟩ := h2 c (by simp; omega)
  refine ⟨h3, h4, fun o => ?_⟩
  by_cases ho : o < 10
  · exact h5 o (by simpa using ho)
  · rw [List.getD_eq_default _ _ (by omega)]; exact Nat.zero_le _

/-- C40.  Ionising an ion once more takes one electron out of one orbital and leaves the others
alone. -/
theorem ionization_removes_one_electron (i : Identifier) (e : Elem) (h : mkElement i = some e)
    (c : Nat) (hc : c < e.Z) :
    ∃ o, o < 10 ∧
      (e.econfs.getD c []).getD o 0 = (e.econfs.getD (c + 1) []).getD o 0 + 1 ∧
      ∀ o', o' ≠ o → (e.econfs.getD c []).getD o' 0 = (e.econfs.getD (c + 1) []).getD o' 0 := by
  have key : ∀ e ∈ allElements, ∀ c ∈ List.range e.Z, ∃ o ∈ List.range 10,
      (e.econfs.getD c []).getD o 0 = (e.econfs.getD (c + 1) []).getD o 0 + 1 ∧
      ∀ o' ∈ List.range 10,
        o' ≠ o → (e.econfs.getD c []).getD o' 0 = (e.econfs.getD (c + 1) []).getD o' 0 := by
    decide +kernel
  obtain ⟨o, ho, h1, h2⟩ := key e (mem_allElements i e h) c (by simpa using hc)
  refine ⟨o, by simpa using ho, h1, fun o' hne => ?_⟩
  by_cases h10 : o' < 10
  · exact h2 o' (by simpa using h10) hne
  · have hl := (configurations_complete i e h).2
    rw [List.getD_eq_default _ _ (by rw [(hl c hc.le).1]; omega),
      List.getD_eq_default _ _ (by rw [(hl (c + 1) hc).1]; omega)]

/-- Number of ways to place the electrons of a configuration into its orbitals. -/
def microstates (cfg : List Nat) : Nat :=
  ((List.range 10).map fun o => Nat.choose (capacityOf o) (cfg.getD o 0)).prod

/-- C40.  Each element has a statistical weight `2 J + 1` for each charge: it is positive, odd for an
even and even for an odd number of electrons, at most the number of states of the configuration,
and one for the bare nucleus. -/
theorem weights_possible (i : Identifier) (e : Elem) (h : mkElement i = some e) :
    e.weights.length = e.Z + 1 ∧ e.weights.getD e.Z 0 = 1 ∧
    ∀ c, c ≤ e.Z → 1 ≤ e.weights.getD c 0 ∧
      (e.weights.getD c 0 + (e.Z - c)) % 2 = 1 ∧
      e.weights.getD c 0 ≤ microstates (e.econfs.getD c []) := by
  have key : ∀ e ∈ allElements, e.weights.length = e.Z + 1 ∧ e.weights.getD e.Z 0 = 1 ∧
      ∀ c ∈ List.range (e.Z + 1), 1 ≤ e.weights.getD c 0 ∧
        (e.weights.getD c 0 + (e.Z - c)) % 2 = 1 ∧
        e.weights.getD c 0 ≤ microstates (e.econfs.getD c []) := by decide +kernel
  obtain ⟨h1, h2, h3⟩ := key e (mem_allElements i e h)
  exact ⟨h1, h2, fun c hc => h3 c (by simp; omega)⟩

/-! ### C40: ionisation energies -/

/-- The entries of a list increase. -/
def increasing : List Nat → Bool
  | a :: b :: l => decide (a < b) && increasing (b :: l)
  | _ => true

/-- C40.  Every element has `Z` ionisation energies.  Up to oxygen they increase with the charge.
(Partial: they do not for the heavier elements, see `energies_not_increasing`.) -/
theorem energies_increase_partial (i : Identifier) (e : Elem) (h : mkElement i = some e) :
    e.energies.length = e.Z ∧ (e.Z ≤ 8 → increasing e.energies = true) := by
  have key : ∀ e ∈ allElements,
      e.energies.length = e.Z ∧ (e.Z ≤ 8 → increasing e.energies = true) := by decide +kernel
  exact key e (mem_allElements i e h)

/-- C40 is false: for fluorine and all heavier elements the tabulated energies do not increase with
the charge. -/
theorem energies_not_increasing (i : Identifier) (e : Elem) (h : mkElement i = some e)
    (h9 : 9 ≤ e.Z) : increasing e.energies = false := by
  have key : ∀ e ∈ allElements, 9 ≤ e.Z → increasing e.energies = false := by decide +kernel
  exact key e (mem_allElements i e h) h9

/-- Insertion of a number into a sorted list, to state what sorting gives. -/
def insertNat (a : Nat) : List Nat → List Nat
  | [] => [a]
  | b :: l => if a ≤ b then a :: b :: l else b :: insertNat a l

/-- A sorted copy, as `jnpu.sort` gives (ionization.py 258, 294, 350). -/
def sortNat (l : List Nat) : List Nat := l.foldr insertNat []

/-- C40.  After sorting, as the ionisation models do, the energies of every element are positive and
increase strictly with the charge: no energy is listed twice. -/
theorem sorted_energies_increase (i : Identifier) (e : Elem) (h : mkElement i = some e) :
    increasing (sortNat e.energies) = true ∧ ∀ x ∈ e.energies, 0 < x := by
  have key : ∀ e ∈ allElements,
      increasing (sortNat e.energies) = true ∧ ∀ x ∈ e.energies, 0 < x := by decide +kernel
  exact key e (mem_allElements i e h)

theorem insertNat_perm (a : Nat) (l : List Nat) : (insertNat a l).Perm (a :: l) := by
  induction l with
  | nil => exact List.Perm.refl _
  | cons b l ih =>
    unfold insertNat
    split
    · exact List.Perm.refl _
    · exact (List.Perm.cons b ih).trans (List.Perm.swap a b l)

theorem sortNat_perm (l : List Nat) : (sortNat l).Perm l := by
  induction l with
  | nil => exact List.Perm.refl _
  | cons a l ih => exact (insertNat_perm a _).trans (List.Perm.cons a ih)

example : ∃ e, mkElement (.sym "C") = some e ∧ e.Z = 6 ∧ e.name = "Carbon" ∧
    e.econfs.getD 2 [] = [2, 2, 0, 0, 0, 0, 0, 0, 0, 0] := by
  refine ⟨(mkElement (.sym "C")).get (by decide +kernel), by simp, ?_⟩
  decide +kernel

/-! ### C51: configuration of the neutral atom -/

/-- C51.  The interpolated populations of an integer number `Z` of electrons are the configuration
of the neutral element `Z`, for all but two elements.  (Partial: chromium and copper are missing,
see `chromium_and_copper_differ`.) -/
theorem interpolated_configuration_partial (Z : Nat) (h1 : 1 ≤ Z) (h36 : Z ≤ 36) (hCr : Z ≠ 24)
    (hCu : Z ≠ 29) :
    ∃ l, electronDistributionTable Z = some l ∧
      Interp.electronDistribution (Z : ℝ) = l.map (fun (n : ℕ) => (n : ℝ)) := by
  have key : ∀ Z ∈ List.range 37, 1 ≤ Z → Z ≠ 24 → Z ≠ 29 →
      electronDistributionTable Z = some [min Z 2 - min Z 0, min Z 4 - min Z 2, min Z 10 - min Z 4,
        min Z 12 - min Z 10, min Z 18 - min Z 12, min Z 30 - min Z 20, min Z 20 - min Z 18,
        min Z 36 - min Z 30, 0, 0] := by decide +kernel
  refine ⟨_, key Z (by simp; omega) h1 hCr hCu, ?_⟩
  have cast : ∀ a b : ℕ, a ≤ b → ((min Z b - min Z a : ℕ) : ℝ) = min (Z : ℝ) b - min (Z : ℝ) a := by
    intro a b hab
    rw [Nat.cast_sub (min_le_min_left Z hab), Nat.cast_min, Nat.cast_min]
  rw [Interp.distribution_eq]
  simp only [List.map_cons, List.map_nil]
  rw [cast 0 2 (by norm_num), cast 2 4 (by norm_num), cast 4 10 (by norm_num),
    cast 10 12 (by norm_num), cast 12 18 (by norm_num), cast 20 30 (by norm_num),
    cast 18 20 (by norm_num), cast 30 36 (by norm_num)]
  norm_num

/-- C51 is false for chromium and copper, which have one 4s electron: interpolation gives two. -/
theorem chromium_and_copper_differ :
    electronDistributionTable 24 = some [2, 2, 6, 2, 6, 5, 1, 0, 0, 0] ∧
    Interp.electronDistribution 24 = [2, 2, 6, 2, 6, 4, 2, 0, 0, 0] ∧
    electronDistributionTable 29 = some [2, 2, 6, 2, 6, 10, 1, 0, 0, 0] ∧
    Interp.electronDistribution 29 = [2, 2, 6, 2, 6, 9, 2, 0, 0, 0] := by
  refine ⟨by decide +kernel, ?_, by decide +kernel, ?_⟩ <;>
    · rw [Interp.distribution_eq]; norm_num [min_def]

/-! ### C49: equality of elements -/

/-- `a == b` holds. -/
def IsEq (a b : Obj) : Prop :=
  match pyEq a b with
  | .ok p => p
  | .raised => False

/-- C49.  On elements, `==` is an equivalence relation, equal elements have equal hashes, and two
elements are equal exactly if they have the same atomic number.  (Partial: average atoms are
missing, see `mix_not_equal_to_itself`.) -/
theorem element_eq_partial (a b c : Nat) :
    IsEq (.elem a) (.elem a) ∧ (IsEq (.elem a) (.elem b) → IsEq (.elem b) (.elem a)) ∧
    (IsEq (.elem a) (.elem b) → IsEq (.elem b) (.elem c) → IsEq (.elem a) (.elem c)) ∧
    (IsEq (.elem a) (.elem b) ↔ a = b) ∧
    (IsEq (.elem a) (.elem b) → pyHash (.elem a) = pyHash (.elem b)) := by
  simp only [IsEq, pyEq, eqMethod, pyHash]
  refine ⟨trivial, Eq.symm, Eq.trans, trivial, ?_⟩
  rintro rfl
  rfl

/-- C49 is false for average atoms: none is equal to itself. -/
theorem mix_not_equal_to_itself (z : ℝ) : ¬ IsEq (.mix z) (.mix z) := by
  simp [IsEq, pyEq, eqMethod]

/-- C49 is false for average atoms: equality is not transitive. -/
theorem eq_not_transitive (Z : Nat) :
    IsEq (.mix Z) (.elem Z) ∧ IsEq (.elem Z) (.mix Z) ∧ ¬ IsEq (.mix Z) (.mix Z) := by
  simp [IsEq, pyEq, eqMethod]

/-- C49 is false for average atoms: an average atom equal to an element has no hash, while the
element has. -/
theorem mix_has_no_hash (Z : Nat) :
    IsEq (.mix Z) (.elem Z) ∧ pyHash (.mix Z) ≠ pyHash (.elem Z) := by
  simp [IsEq, pyEq, eqMethod, pyHash]

/-! ### C50: cold binding energies -/

/-- C50.  The cold binding energies of 1s and 2s are the tabulated edges; for hydrogen, helium and
lithium all of them are.  (Partial: the other orbitals are missing, see
`cold_binding_energies_shifted`.) -/
theorem cold_binding_energies_partial (i : Identifier) (e : Elem) (h : mkElement i = some e) :
    ∃ row, coldEdges.lookup e.Z = some row ∧
      e.coldBindingEnergies.getD 0 0 = row.getD 0 0 ∧
      e.coldBindingEnergies.getD 1 0 = row.getD 1 0 ∧
      (e.Z ≤ 3 → ∀ o, e.coldBindingEnergies.getD o 0 = row.getD o 0) := by
  have key : ∀ e ∈ allElements, ∃ row ∈ coldEdges.lookup e.Z,
      e.coldBindingEnergies.getD 0 0 = row.getD 0 0 ∧
      e.coldBindingEnergies.getD 1 0 = row.getD 1 0 ∧
      (e.Z ≤ 3 → (row.length ≤ 10 ∧ e.coldBindingEnergies.length = 10 ∧
        ∀ o ∈ List.range 10, e.coldBindingEnergies.getD o 0 = row.getD o 0)) := by
    decide +kernel
  obtain ⟨row, h0, h1, h2, h3⟩ := key e (mem_allElements i e h)
  refine ⟨row, h0, h1, h2, fun hz o => ?_⟩
  obtain ⟨hl, hl', h4⟩ := h3 hz
  by_cases ho : o < 10
  · exact h4 o (by simpa using ho)
  · rw [List.getD_eq_default _ _ (by omega), List.getD_eq_default _ _ (by omega)]

/-- C50 is false.  For every element from beryllium on, the 2p energy is not the tabulated one but
the mean of the 2p and 3s entries; from magnesium on, the 3s energy is the tabulated 3p one. -/
theorem cold_binding_energies_shifted (i : Identifier) (e : Elem) (h : mkElement i = some e)
    (h4 : 4 ≤ e.Z) :
    ∃ row, coldEdges.lookup e.Z = some row ∧
      e.coldBindingEnergies.getD 2 0 ≠ row.getD 2 0 ∧
      2 * e.coldBindingEnergies.getD 2 0 = row.getD 2 0 + row.getD 3 0 ∧
      (12 ≤ e.Z → e.coldBindingEnergies.getD 3 0 = row.getD 4 0 ∧ row.getD 4 0 ≠ row.getD 3 0) := by
  have key : ∀ e ∈ allElements, 4 ≤ e.Z → ∃ row ∈ coldEdges.lookup e.Z,
      e.coldBindingEnergies.getD 2 0 ≠ row.getD 2 0 ∧
      2 * e.coldBindingEnergies.getD 2 0 = row.getD 2 0 + row.getD 3 0 ∧
      (12 ≤ e.Z → e.coldBindingEnergies.getD 3 0 = row.getD 4 0 ∧ row.getD 4 0 ≠ row.getD 3 0) := by
    decide +kernel
  obtain ⟨row, h0, h1⟩ := key e (mem_allElements i e h) h4
  exact ⟨row, h0, h1⟩

/-- C50 is false: six 3d electrons of iron have a binding energy of zero, while the table lists 2 eV,
and its 2p electrons are bound by 402 eV instead of 713 eV. -/
theorem iron_cold_binding :
    ∃ e, mkElement (.sym "Fe") = some e ∧ (e.econfs.getD 0 []).getD 5 0 = 6 ∧
      e.coldBindingEnergies.getD 5 0 = 0 ∧ (coldEdges.lookup 26).map (·.getD 5 0) = some 20000 ∧
      e.coldBindingEnergies.getD 2 0 = 4023250 ∧
      (coldEdges.lookup 26).map (·.getD 2 0) = some 7133500 := by
  refine ⟨(mkElement (.sym "Fe")).get (by decide +kernel), by simp, ?_⟩
  decide +kernel

/-! ### C52: binding energies of ions -/

/-- What the data file lists for an ion and an orbital: zero if nothing. -/
def listed (Z c o : Nat) : Nat :=
  match facData.find? fun r => r.1 == Z with
  | none => 0
  | some r => match r.2.2.find? fun i => i.1 == c with
    | none => 0
    | some i => (orbitalEntry i.2.2 o).getD 0

theorem facData_good : (facData.map (·.1)).Nodup ∧ ∀ r ∈ facData, goodRow r = true := by
  decide +kernel

theorem edgeTable_eq_listed (Z c o : Nat) : edgeTable Z c o = listed Z c o := by
  obtain ⟨hn, hg⟩ := facData_good
  unfold edgeTable listed
  cases h : facData.find? fun r => r.1 == Z with
  | none =>
    rw [fill_other]
    intro r hr hZ
    exact absurd (List.find?_eq_none.1 h r hr) (by simp [hZ])
  | some r =>
    have hr := List.mem_of_find?_eq_some h
    have hZ : r.1 = Z := by simpa using List.find?_some h
    simp only
    cases h' : r.2.2.find? fun i => i.1 == c with
    | none =>
      rw [fill_other]
      intro r' hr' hZ' hc
      have : r' = r := List.inj_on_of_nodup_map hn hr' hr (by rw [hZ', hZ])
      subst this
      obtain ⟨i, hi, hic⟩ := List.mem_map.1 hc
      exact absurd (List.find?_eq_none.1 h' i hi) (by simp [hic])
    | some i =>
      have hi := List.mem_of_find?_eq_some h'
      have hc : i.1 = c := by simpa using List.find?_some h'
      rw [fill_self facData _ Z c o hn hg r hr hZ i.2.1 i.2.2 (by rw [← hc]; exact hi)]

theorem maxZ_eq : maxZ = 36 := by decide +kernel

theorem maxCharge_eq : maxCharge = 35 := by decide +kernel

theorem roundHalfEven_near (x : ℝ) (c : Int) (h1 : (c : ℝ) - 1 / 2 < x) (h2 : x < c + 1 / 2) :
    roundHalfEven x = c := by
  unfold roundHalfEven
  rcases le_or_gt (c : ℝ) x with h | h
  · have hf : ⌊x⌋ = c := by rw [Int.floor_eq_iff]; constructor <;> linarith
    rw [hf, if_pos (by linarith)]
  · have hf : ⌊x⌋ = c - 1 := by
      rw [Int.floor_eq_iff]; push_cast; constructor <;> linarith
    rw [hf, if_neg (by push_cast; linarith), if_pos (by push_cast; linarith)]
    ring

/-- Rounding never leaves the two neighbouring integers; in particular it keeps the sign. -/
theorem roundHalfEven_le (x : ℝ) (hx : x ≤ 0) : roundHalfEven x ≤ 0 := by
  have hf : (⌊x⌋ : ℝ) ≤ x := Int.floor_le x
  have hf0 : ⌊x⌋ ≤ 0 := by exact_mod_cast hf.trans hx
  unfold roundHalfEven
  split_ifs with h1 h2 h3
  · exact hf0
  · have : (⌊x⌋ : ℝ) < 0 := by linarith
    have : ⌊x⌋ < 0 := by exact_mod_cast this
    omega
  · exact hf0
  · have : (⌊x⌋ : ℝ) ≤ - (1 / 2) := by linarith
    have : (⌊x⌋ : ℝ) < 0 := by linarith
    have : ⌊x⌋ < 0 := by exact_mod_cast this
    omega

theorem get_of_round (Z : Nat) (hZ : Z ≤ 36) (x : ℝ) (c : Nat) (hc : c ≤ 35)
    (h : roundHalfEven x = c) (o : Nat) : getBindingEnergies Z x o = listed Z c o := by
  unfold getBindingEnergies
  simp only [maxZ_eq, maxCharge_eq, h]
  rw [min_eq_left hZ, edgeTable_eq_listed]
  congr 1
  omega

/-- C52.  The binding energies of an ion are those listed for the charge nearest to the given one. -/
theorem binding_energies_of_nearest_charge (Z : Nat) (hZ : Z ≤ 36) (c : Nat) (hc : c ≤ 35) (x : ℝ)
    (h1 : (c : ℝ) - 1 / 2 < x) (h2 : x < c + 1 / 2) (o : Nat) :
    getBindingEnergies Z x o = listed Z c o :=
  get_of_round Z hZ x c hc (roundHalfEven_near x c (by exact_mod_cast h1) (by exact_mod_cast h2)) o

/-- C52.  Negative charges are treated as the neutral atom. -/
theorem binding_energies_of_negative_charge (Z : Nat) (hZ : Z ≤ 36) (x : ℝ) (hx : x ≤ 0) (o : Nat) :
    getBindingEnergies Z x o = listed Z 0 o := by
  have := roundHalfEven_le x hx
  unfold getBindingEnergies
  simp only [maxZ_eq, maxCharge_eq]
  rw [min_eq_left hZ, edgeTable_eq_listed]
  congr 1
  omega

theorem get_nat (Z : Nat) (hZ : Z ≤ 36) (c : Nat) (hc : c ≤ 35) (o : Nat) :
    getBindingEnergies Z (c : ℝ) o = listed Z c o :=
  binding_energies_of_nearest_charge Z hZ c hc c (by linarith) (by linarith) o

theorem ions_checked : ∀ e ∈ allElements, ∀ c ∈ List.range e.Z,
    (∀ o ∈ List.range 10, (0 < listed e.Z c o ↔ 0 < (e.econfs.getD c []).getD o 0)) ∧
    (∀ o ∈ List.range 10, ∀ o' ∈ List.range o, 0 < listed e.Z c o → 0 < listed e.Z c o' →
      listed e.Z c o < listed e.Z c o') ∧
    (∀ o ∈ List.range 10, 0 < listed e.Z (c + 1) o → listed e.Z c o < listed e.Z (c + 1) o) := by
  decide +kernel

theorem Z_le (i : Identifier) (e : Elem) (h : mkElement i = some e) : e.Z ≤ 36 := by
  have key : ∀ e ∈ allElements, e.Z ≤ 36 := by decide +kernel
  exact key e (mem_allElements i e h)

/-- C52.  Exactly the orbitals that are occupied in the ion have a binding energy. -/
theorem bound_iff_occupied (i : Identifier) (e : Elem) (h : mkElement i = some e) (c : Nat)
    (hc : c < e.Z) (o : Nat) (ho : o < 10) :
    0 < getBindingEnergies e.Z (c : ℝ) o ↔ 0 < (e.econfs.getD c []).getD o 0 := by
  have hZ := Z_le i e h
  rw [get_nat e.Z hZ c (by omega)]
  exact (ions_checked e (mem_allElements i e h) c (by simpa using hc)).1 o (by simpa using ho)

/-- C52.  Of two occupied orbitals the inner one is bound more strongly. -/
theorem inner_orbitals_bound_stronger (i : Identifier) (e : Elem) (h : mkElement i = some e)
    (c : Nat) (hc : c < e.Z) (o o' : Nat) (ho : o < 10) (hoo : o' < o)
    (h1 : 0 < (e.econfs.getD c []).getD o 0) (h2 : 0 < (e.econfs.getD c []).getD o' 0) :
    getBindingEnergies e.Z (c : ℝ) o < getBindingEnergies e.Z (c : ℝ) o' := by
  have hZ := Z_le i e h
  rw [← bound_iff_occupied i e h c hc o ho] at h1
  rw [← bound_iff_occupied i e h c hc o' (by omega)] at h2
  rw [get_nat e.Z hZ c (by omega)] at h1 h2 ⊢
  rw [get_nat e.Z hZ c (by omega)]
  exact (ions_checked e (mem_allElements i e h) c (by simpa using hc)).2.1 o (by simpa using ho) o'
    (by simpa using hoo) h1 h2

/-- C52.  An orbital is bound more strongly the higher the charge, as long as it is occupied. -/
theorem binding_increases_with_charge (i : Identifier) (e : Elem) (h : mkElement i = some e)
    (c d : Nat) (hcd : c < d) (hd : d < e.Z) (o : Nat) (ho : o < 10)
    (hocc : 0 < (e.econfs.getD d []).getD o 0) :
    getBindingEnergies e.Z (c : ℝ) o < getBindingEnergies e.Z (d : ℝ) o := by
  have hZ := Z_le i e h
  have hpos : 0 < listed e.Z d o := by
    rw [← bound_iff_occupied i e h d hd o ho, get_nat e.Z hZ d (by omega)] at hocc
    exact hocc
  rw [get_nat e.Z hZ c (by omega), get_nat e.Z hZ d (by omega)]
  have step : ∀ c, c + 1 < e.Z → 0 < listed e.Z (c + 1) o →
      listed e.Z c o < listed e.Z (c + 1) o := fun c hc =>
    (ions_checked e (mem_allElements i e h) c (by simp; omega)).2.2 o (by simpa using ho)
  -- an orbital that is occupied at charge `d` is occupied at all lower charges
  have occ : ∀ k, k ≤ d → 0 < (e.econfs.getD (d - k) []).getD o 0 := by
    intro k
    induction k with
    | zero => intro _; exact hocc
    | succ k ih =>
      intro hk
      obtain ⟨o1, _, h2, h3⟩ := ionization_removes_one_electron i e h (d - (k + 1)) (by omega)
      have hprev := ih (by omega)
      rw [show d - (k + 1) + 1 = d - k by omega] at h2 h3
      by_cases e1 : o = o1
      · rw [e1, h2]; omega
      · rw [h3 o e1]; exact hprev
  have lt : ∀ k, k + 1 ≤ d → listed e.Z (d - (k + 1)) o < listed e.Z d o := by
    intro k
    induction k with
    | zero =>
      intro hk
      have := step (d - 1) (by omega)
      rw [show d - 1 + 1 = d by omega] at this
      exact this hpos
    | succ k ih =>
      intro hk
      have h1 := ih (by omega)
      have h2 := step (d - (k + 2)) (by omega)
      rw [show d - (k + 2) + 1 = d - (k + 1) by omega] at h2
      have h3 := occ (k + 1) (by omega)
      rw [← bound_iff_occupied i e h (d - (k + 1)) (by omega) o ho,
        get_nat e.Z hZ _ (by omega)] at h3
      exact (h2 h3).trans h1
  have := lt (d - c - 1) (by omega)
  rwa [show d - (d - c - 1 + 1) = c by omega] at this

/-- C52.  A bare nucleus has no binding energies.  (Partial: krypton is missing, see
`bare_krypton_has_binding_energy`.) -/
theorem bare_nucleus_partial (Z : Nat) (hZ : Z < 36) (o : Nat) (ho : o < 10) :
    getBindingEnergies Z (Z : ℝ) o = 0 := by
  rw [get_nat Z (by omega) Z (by omega)]
  have key : ∀ Z ∈ List.range 36, ∀ o ∈ List.range 10, listed Z Z o = 0 := by decide +kernel
  exact key Z (by simpa using hZ) o (by simpa using ho)

/-- C52 is false for bare krypton: the charge is clipped to 35, and the binding energy of the last
electron, more than 17 keV, is reported although there is none. -/
theorem bare_krypton_has_binding_energy :
    (econf.lookup 36).map (fun rows => rows.getD 36 []) = some [0, 0, 0, 0, 0, 0, 0, 0, 0, 0] ∧
    getBindingEnergies 36 36 0 = getBindingEnergies 36 35 0 ∧
    170000000 ≤ getBindingEnergies 36 36 0 := by
  have h35 : getBindingEnergies 36 35 0 = listed 36 35 0 := by
    have := get_nat 36 (by norm_num) 35 (by norm_num) 0
    exact_mod_cast this
  have h36 : getBindingEnergies 36 36 0 = listed 36 35 0 := by
    have h : roundHalfEven 36 = 36 :=
      roundHalfEven_near 36 36 (by norm_num) (by norm_num)
    unfold getBindingEnergies
    rw [h, edgeTable_eq_listed]
    simp only [maxZ_eq, maxCharge_eq]
    rfl
  rw [h35, h36]
  refine ⟨by decide +kernel, rfl, by decide +kernel⟩

/-- The hypotheses of this section are met, e.g. by the 2p orbital of iron with charges 2 and 16. -/
example : ∃ e, mkElement (.sym "Fe") = some e ∧ 16 < e.Z ∧
    0 < (e.econfs.getD 2 []).getD 2 0 ∧ 0 < (e.econfs.getD 16 []).getD 2 0 ∧
    0 < (e.econfs.getD 2 []).getD 5 0 := by
  refine ⟨(mkElement (.sym "Fe")).get (by decide +kernel), by simp, ?_⟩
  decide +kernel

end Verif.Elements
