/-
Property C105: the tables of energy levels are read completely and correctly.
-/
import Verif.Model.Nist

set_option autoImplicit false

namespace Verif.Nist

/-! ### Specification -/

/-- The text of the digits, the most significant one first. -/
def text (ds : List (Fin 10)) : List Char := ds.map fun d : Fin 10 => Char.ofNat (48 + d.val)

/-- The number with these digits. -/
def value : List (Fin 10) → ℕ
  | [] => 0
  | d :: ds => d.val * 10 ^ ds.length + value ds

/-- The text of a decimal number: without digits after the point there is no point. -/
def decimal (w f : List (Fin 10)) : List Char := text w ++ if f = [] then [] else '.' :: text f

/-- The part of a row with the multiplicity and the energy of a level. -/
def level (g w f : List (Fin 10)) : List Char :=
  ",term,".toList ++ (text g ++ (",\"=\"\"".toList ++ (decimal w f ++ "\"\"\"".toList)))

/-- The text begins with a level of multiplicity `x.1` and energy `x.2`. -/
def Level (l : List Char) (x : ℕ × ℚ) : Prop :=
  ∃ g w f rest, g ≠ [] ∧ w ≠ [] ∧ l = level g w f ++ rest ∧ x = (value g, (value w : ℚ) + value f / 10 ^ f.length)

/-! ### Digits -/

theorem isDigit_ofNat (d : Fin 10) : (Char.ofNat (48 + d.val)).isDigit = true := by
  revert d; decide

theorem exists_digit {c : Char} (h : c.isDigit = true) : ∃ d : Fin 10, c = Char.ofNat (48 + d.val) := by
  have h' : 48 ≤ c.toNat ∧ c.toNat ≤ 57 := by
    simp only [Char.isDigit, Bool.and_eq_true, decide_eq_true_eq, ge_iff_le] at h
    obtain ⟨a, b⟩ := h
    exact ⟨by simpa [UInt32.le_iff_toNat_le] using a, by simpa [UInt32.le_iff_toNat_le] using b⟩
  refine ⟨⟨c.toNat - 48, by omega⟩, ?_⟩
  show c = Char.ofNat (48 + (c.toNat - 48))
  rw [show 48 + (c.toNat - 48) = c.toNat by omega, Char.ofNat_toNat]

theorem exists_text {l : List Char} (h : ∀ c ∈ l, c.isDigit = true) : ∃ ds, l = text ds := by
  induction l with
  | nil => exact ⟨[], rfl⟩
  | cons c l ih =>
    obtain ⟨d, hd⟩ := exists_digit (h c List.mem_cons_self)
    obtain ⟨ds, hds⟩ := ih fun x hx => h x (List.mem_cons_of_mem _ hx)
    exact ⟨d :: ds, by rw [hd, hds]; rfl⟩

theorem takeWhile_isDigit (l : List Char) : ∀ c ∈ l.takeWhile Char.isDigit, c.isDigit = true := by
  induction l with
  | nil => simp
  | cons c l ih =>
    rw [List.takeWhile_cons]
    split_ifs with h
    · intro x hx
      rcases List.mem_cons.1 hx with rfl | hx
      · exact h
      · exact ih x hx
    · simp

theorem text_isDigit (ds : List (Fin 10)) : ∀ c ∈ text ds, c.isDigit = true := by
  intro c hc
  obtain ⟨d, _, rfl⟩ := List.mem_map.1 hc
  exact isDigit_ofNat d

theorem text_eq_nil {ds : List (Fin 10)} : text ds = [] ↔ ds = [] := List.map_eq_nil_iff

theorem toNat_digit (d : Fin 10) : (Char.ofNat (48 + d.val)).toNat - 48 = d.val := by
  revert d; decide

/-- The digits are read in the decimal system. -/
theorem number_text (ds : List (Fin 10)) : number (text ds) = value ds := by
  have key : ∀ (ds : List (Fin 10)) (a : ℕ), (text ds).foldl (fun a c => 10 * a + (c.toNat - 48)) a = a * 10 ^ ds.length + value ds := by
    intro ds
    induction ds with
    | nil => intro a; simp [text, value]
    | cons d ds ih =>
      intro a
      show (text ds).foldl _ (10 * a + ((Char.ofNat (48 + d.val)).toNat - 48)) = _
      rw [ih, toNat_digit, value, List.length_cons]
      ring
  unfold number
  rw [key]
  simp

/-! ### One position -/

theorem lit_eq {p l r : List Char} : lit p l = some r ↔ l = p ++ r := by
  induction p generalizing l with
  | nil => simp [lit, eq_comm]
  | cons c p ih =>
    cases l with
    | nil => simp [lit]
    | cons d l =>
      unfold lit
      split_ifs with h
      · rw [ih, h]; simp
      · simp [Ne.symm h]

theorem digits_eq {l t r : List Char} : digits l = some (t, r) ↔
    ∃ ds, ds ≠ [] ∧ t = text ds ∧ l = text ds ++ r ∧ ∀ c ∈ r.head?, c.isDigit = false := by
  unfold digits
  constructor
  · intro h
    split_ifs at h with h0
    simp only [Option.some.injEq, Prod.mk.injEq] at h
    obtain ⟨rfl, rfl⟩ := h
    obtain ⟨ds, hds⟩ := exists_text (takeWhile_isDigit l)
    refine ⟨ds, fun h => h0 (by rw [hds, h]; rfl), hds, by rw [← hds, List.takeWhile_append_dropWhile], ?_⟩
    intro c hc
    have := List.head?_dropWhile_not Char.isDigit l
    rw [Option.mem_def.1 hc] at this
    simpa using this
  · rintro ⟨ds, hne, rfl, rfl, hr⟩
    have e1 : (text ds ++ r).takeWhile Char.isDigit = text ds := by
      rw [List.takeWhile_append_of_pos (text_isDigit ds)]
      cases r with
      | nil => simp
      | cons c r => rw [List.takeWhile_cons_of_neg (by simp [hr c (by simp)]), List.append_nil]
    have e2 : (text ds ++ r).dropWhile Char.isDigit = r := by
      rw [List.dropWhile_append_of_pos (text_isDigit ds)]
      cases r with
      | nil => rfl
      | cons c r => rw [List.dropWhile_cons_of_neg (by simp [hr c (by simp)])]
    rw [e1, e2, if_neg fun h => hne (text_eq_nil.1 h)]

theorem fraction_quote (f : List (Fin 10)) (r : List Char) :
    fraction ((if f = [] then [] else '.' :: text f) ++ ('"' :: r)) = (text f, '"' :: r) := by
  by_cases h : f = []
  · subst h; rfl
  · rw [if_neg h]
    show (digits (text f ++ '"' :: r)).getD _ = _
    rw [(digits_eq (t := text f) (r := '"' :: r)).2 ⟨f, h, rfl, rfl, by simp⟩]
    rfl

theorem fraction_spec (l : List Char) : ∃ f, fraction l = (text f, (fraction l).2) ∧
    l = (if f = [] then [] else '.' :: text f) ++ (fraction l).2 := by
  unfold fraction
  split
  · rename_i r
    cases h : digits r with
    | none => exact ⟨[], rfl, rfl⟩
    | some tr =>
      obtain ⟨t, r'⟩ := tr
      obtain ⟨ds, hne, rfl, rfl, _⟩ := digits_eq.1 h
      exact ⟨ds, rfl, by rw [if_neg hne]; rfl⟩
  · exact ⟨[], rfl, rfl⟩

/-- C105: the pattern fits at a position exactly if a level stands there. -/
theorem matchAt_iff (l : List Char) (x : ℕ × ℚ) : matchAt l = some x ↔ Level l x := by
  constructor
  · intro h
    unfold matchAt at h
    simp only [Option.bind_eq_some_iff, Option.map_eq_some_iff, Prod.exists] at h
    obtain ⟨l1, h1, g, l2, h2, l3, h3, w, l4, h4, r, h5, rfl⟩ := h
    obtain ⟨gd, hg, rfl, rfl, -⟩ := digits_eq.1 h2
    obtain ⟨wd, hw, rfl, rfl, -⟩ := digits_eq.1 h4
    obtain ⟨f, hf1, hf2⟩ := fraction_spec l4
    have e1 := lit_eq.1 h1
    have e3 := lit_eq.1 h3
    have e5 := lit_eq.1 h5
    refine ⟨gd, wd, f, r, hg, hw, ?_, ?_⟩
    · rw [e1, e3]
      unfold level decimal
      conv_lhs => rw [hf2, e5]
      simp only [List.append_assoc]
    · have : (fraction l4).1 = text f := by rw [hf1]
      rw [this, number_text, number_text, number_text, text, List.length_map]
  · rintro ⟨g, w, f, rest, hg, hw, rfl, rfl⟩
    unfold matchAt level decimal
    simp only [List.append_assoc]
    rw [lit_eq.2 rfl]
    simp only [Option.bind_some]
    rw [(digits_eq (t := text g)).2 ⟨g, hg, rfl, rfl, by simp⟩]
    simp only [Option.bind_some]
    rw [lit_eq.2 rfl]
    simp only [Option.bind_some]
    have hq : "\"\"\"".toList ++ rest = '"' :: ('"' :: '"' :: rest) := rfl
    rw [hq, (digits_eq (t := text w)).2 ⟨w, hw, rfl, rfl, by
      by_cases h : f = []
      · subst h; simp
      · rw [if_neg h]; simp⟩]
    simp only [Option.bind_some]
    rw [fraction_quote, show lit "\"\"\"".toList (text f, '"' :: '"' :: '"' :: rest).2 = some rest from lit_eq.2 rfl]
    simp only [Option.map_some, number_text]
    simp only [text, List.length_map]

theorem level_unique {l : List Char} {x y : ℕ × ℚ} (hx : Level l x) (hy : Level l y) : x = y := by
  have := (matchAt_iff l x).2 hx
  rw [(matchAt_iff l y).2 hy] at this
  exact (Option.some.inj this).symm

/-! ### Rows and files -/

/-- C105: a row gives its first level. -/
theorem search_iff (l : List Char) (x : ℕ × ℚ) : search l = some x ↔
    ∃ p r, l = p ++ r ∧ Level r x ∧ ∀ p' r', l = p' ++ r' → p'.length < p.length → ∀ y, ¬Level r' y := by
  induction l with
  | nil =>
    unfold search
    rw [matchAt_iff]
    constructor
    · intro h
      exact ⟨[], [], rfl, h, fun _ _ _ hl => absurd hl (Nat.not_lt_zero _)⟩
    · rintro ⟨p, r, h, hl, -⟩
      rw [(List.append_eq_nil_iff.1 h.symm).2] at hl
      exact hl
  | cons c l ih =>
    unfold search
    cases hm : matchAt (c :: l) with
    | some y =>
      have hy := (matchAt_iff _ _).1 hm
      simp only [Option.orElse_some, Option.some.injEq]
      constructor
      · rintro rfl
        exact ⟨[], _, rfl, hy, fun _ _ _ hl => absurd hl (Nat.not_lt_zero _)⟩
      · rintro ⟨p, r, h, hl, hmin⟩
        cases p with
        | nil =>
          rw [List.nil_append] at h
          subst h
          exact level_unique hy hl
        | cons d p => exact absurd hy (hmin [] _ rfl (by simp) y)
    | none =>
      have hno : ∀ y, ¬Level (c :: l) y := fun y hy => by
        rw [(matchAt_iff _ _).2 hy] at hm; cases hm
      simp only [Option.orElse_none]
      rw [ih]
      constructor
      · rintro ⟨p, r, rfl, hl, hmin⟩
        refine ⟨c :: p, r, rfl, hl, fun p' r' h hlt => ?_⟩
        cases p' with
        | nil =>
          rw [List.nil_append] at h
          rw [← h]
          exact hno
        | cons d p' =>
          rw [List.cons_append, List.cons.injEq] at h
          exact hmin p' r' h.2 (by simpa using hlt)
      · rintro ⟨p, r, h, hl, hmin⟩
        cases p with
        | nil =>
          rw [List.nil_append] at h
          exact absurd (h ▸ hl) (hno x)
        | cons d p =>
          rw [List.cons_append, List.cons.injEq] at h
          refine ⟨p, r, h.2, hl, fun p' r' h' hlt => ?_⟩
          exact hmin (c :: p') r' (by rw [h', List.cons_append]) (by simpa using hlt)

/-- C105: a row without a level gives nothing, and only such a row. -/
theorem search_none_iff (l : List Char) : search l = none ↔ ∀ p r y, l = p ++ r → ¬Level r y := by
  constructor
  · intro h p r y hl hy
    induction l generalizing p with
    | nil =>
      rw [(List.append_eq_nil_iff.1 hl.symm).2] at hy
      unfold search at h
      rw [(matchAt_iff _ _).2 hy] at h
      cases h
    | cons c l ih =>
      unfold search at h
      replace h : matchAt (c :: l) = none ∧ search l = none := by
        cases hm : matchAt (c :: l) with
        | none => rw [hm] at h; exact ⟨rfl, h⟩
        | some z => rw [hm] at h; cases h
      cases p with
      | nil =>
        rw [List.nil_append] at hl
        rw [(matchAt_iff _ _).2 (hl ▸ hy)] at h
        cases h.1
      | cons d p =>
        rw [List.cons_append, List.cons.injEq] at hl
        exact ih h.2 p hl.2
  · intro h
    cases hs : search l with
    | none => rfl
    | some x =>
      obtain ⟨p, r, hl, hx, -⟩ := (search_iff l x).1 hs
      exact absurd hx (h p r x hl)

/-- The mark of a level. -/
def mark : List Char := ",term,".toList

theorem Level.mark {l : List Char} {x : ℕ × ℚ} (h : Level l x) : ∃ r, l = mark ++ r := by
  obtain ⟨g, w, f, rest, -, -, rfl, -⟩ := h
  exact ⟨_, List.append_assoc _ _ _⟩

/-- If the mark is not found earlier, no level stands earlier. -/
theorem no_earlier {before x : List Char} (h : ¬mark <:+: before ++ ",term".toList) {p r : List Char}
    (hl : before ++ (mark ++ x) = p ++ r) (hp : p.length < before.length) (y : ℕ × ℚ) : ¬Level r y := by
  intro hy
  obtain ⟨r', rfl⟩ := hy.mark
  apply h
  have h1 : p ++ mark <+: before ++ (mark ++ x) := ⟨r', by rw [hl, List.append_assoc]⟩
  have h2 : before ++ ",term".toList <+: before ++ (mark ++ x) := ⟨',' :: x, by simp [mark]⟩
  have h3 := List.prefix_of_prefix_length_le h1 h2 (by simp [mark]; omega)
  exact (List.suffix_append p mark).isInfix.trans h3.isInfix

/-- C105: of a row with a level whose energy is a plain decimal number, multiplicity and energy are read, whatever stands in the
other columns. -/
theorem row_read {before : List Char} (h : ¬mark <:+: before ++ ",term".toList) {g w : List (Fin 10)} (f : List (Fin 10))
    (hg : g ≠ []) (hw : w ≠ []) (rest : List Char) :
    search (before ++ (level g w f ++ rest)) = some (value g, (value w : ℚ) + value f / 10 ^ f.length) := by
  refine (search_iff _ _).2 ⟨before, _, rfl, ⟨g, w, f, rest, hg, hw, rfl, rfl⟩, fun p' r' hl hlt y => ?_⟩
  refine no_earlier h (x := text g ++ (",\"=\"\"".toList ++ (decimal w f ++ "\"\"\"".toList)) ++ rest) ?_ hlt y
  rw [← hl]
  simp [level, mark]

/-- C105: a level is skipped if its energy begins with anything but a digit, for example the bracket of a predicted level. -/
theorem row_skipped {before : List Char} (h : ¬mark <:+: before ++ ",term".toList) {g : List (Fin 10)} (hg : g ≠ []) {c : Char}
    (hc : c.isDigit = false) {rest : List Char}
    (hr : ¬mark <:+: "term,".toList ++ (text g ++ (",\"=\"\"".toList ++ c :: rest))) :
    search (before ++ (mark ++ (text g ++ (",\"=\"\"".toList ++ c :: rest)))) = none := by
  set x := text g ++ (",\"=\"\"".toList ++ c :: rest) with hx
  rw [search_none_iff]
  intro p r y hl hy
  rcases lt_trichotomy p.length before.length with hlt | heq | hgt
  · exact no_earlier h hl hlt y hy
  · obtain ⟨rfl, rfl⟩ := List.append_inj hl heq.symm
    have hm := (matchAt_iff _ _).2 hy
    unfold matchAt at hm
    rw [show lit ",term,".toList (mark ++ x) = some x from lit_eq.2 rfl] at hm
    simp only [Option.bind_some] at hm
    rw [hx, (digits_eq (t := text g)).2 ⟨g, hg, rfl, rfl, by simp⟩] at hm
    simp only [Option.bind_some] at hm
    rw [lit_eq.2 rfl] at hm
    simp only [Option.bind_some] at hm
    have : digits (c :: rest) = none := by
      unfold digits
      rw [List.takeWhile_cons_of_neg (by simp [hc]), if_pos rfl]
    rw [this] at hm
    cases hm
  · obtain ⟨r', rfl⟩ := hy.mark
    apply hr
    have h1 : mark ++ r' <:+ before ++ (mark ++ x) := ⟨p, hl.symm⟩
    have h2 : "term,".toList ++ x <:+ before ++ (mark ++ x) := ⟨before ++ [','], by simp [mark]⟩
    have hlen := congrArg List.length hl
    simp only [List.length_append] at hlen
    have h3 := List.suffix_of_suffix_length_le h1 h2 (by simp [mark] at hlen ⊢; omega)
    exact (List.prefix_append mark r').isInfix.trans h3.isInfix

/-- A row of a table: what stands before the level, the level and what follows. -/
structure Row where
  before : List Char
  g : List (Fin 10)
  w : List (Fin 10)
  f : List (Fin 10)
  rest : List Char

/-- The text of a row. -/
def Row.line (r : Row) : List Char := r.before ++ (level r.g r.w r.f ++ r.rest)

/-- A row with a multiplicity and an energy, without the mark in another place before them. -/
def Row.Ok (r : Row) : Prop := ¬mark <:+: r.before ++ ",term".toList ∧ r.g ≠ [] ∧ r.w ≠ []

/-- C105: all levels of a table are read, in its order. -/
theorem table_read (header : List (List Char)) (hh : ∀ l ∈ header, ¬mark <:+: l) (rows : List Row) (h : ∀ r ∈ rows, r.Ok) :
    readFile (header ++ rows.map Row.line) =
      (rows.map fun r => value r.g, rows.map fun r => (value r.w : ℚ) + value r.f / 10 ^ r.f.length) := by
  have h1 : header.filterMap search = [] := by
    rw [List.filterMap_eq_nil_iff]
    intro l hl
    rw [search_none_iff]
    rintro p r y rfl hy
    obtain ⟨r', rfl⟩ := hy.mark
    exact hh _ hl ⟨p, r', by simp⟩
  have h2 : (rows.map Row.line).filterMap search = rows.map fun r => (value r.g, (value r.w : ℚ) + value r.f / 10 ^ r.f.length) := by
    rw [List.filterMap_map]
    clear hh h1
    induction rows with
    | nil => rfl
    | cons r rows ih =>
      obtain ⟨a, b, c⟩ := h r List.mem_cons_self
      have e : (search ∘ Row.line) r = some (value r.g, (value r.w : ℚ) + value r.f / 10 ^ r.f.length) := row_read a r.f b c r.rest
      rw [List.filterMap_cons_some e, ih fun x hx => h x (List.mem_cons_of_mem _ hx)]
      rfl
  unfold readFile
  rw [List.filterMap_append, h1, h2, List.nil_append, List.map_map, List.map_map]
  rfl

/-- C105: there are as many multiplicities as energies. -/
theorem readFile_length (lines : List (List Char)) : (readFile lines).1.length = (readFile lines).2.length := by
  simp [readFile]

/-- C105: a charge state without a readable level is taken to be removed by pressure, however strongly it is bound. -/
theorem state_without_levels (u : Expt.Consts) {Z k : ℕ} (hk : k < Z) (files : ℕ → List (List Char)) (E ipd : ℕ → ℝ)
    (T ne mu N logNe : ℝ) (h : ∀ l ∈ files k, ∀ p r y, l = p ++ r → ¬Level r y) :
    Saha.logP (buFromFiles u Z files E ipd T ne mu N) logNe k = none := by
  have h1 : (files k).filterMap search = [] := by
    rw [List.filterMap_eq_nil_iff]
    intro l hl
    exact (search_none_iff l).2 (h l hl)
  have h2 : ¬(0 : ℝ) < (buFromFiles u Z files E ipd T ne mu N).mask k := by
    show ¬(0 : ℝ) < Saha.heav0 (if k < Z then Saha.planckLarkin u _ T else 1)
    rw [if_pos hk]
    simp [readFile, h1, Saha.planckLarkin, Saha.heav0]
  exact if_pos ⟨hk, h2⟩

/-- C105: the partition sum of a charge state is that of the levels in its table. -/
theorem partition_sum_of_table (u : Expt.Consts) {Z k : ℕ} (hk : k < Z) (files : ℕ → List (List Char)) (E ipd : ℕ → ℝ)
    (T ne mu N : ℝ) {header : List (List Char)} (hh : ∀ l ∈ header, ¬mark <:+: l) {rows : List Row} (h : ∀ r ∈ rows, r.Ok)
    (hf : files k = header ++ rows.map Row.line) :
    (buFromFiles u Z files E ipd T ne mu N).mask k = Saha.heav0 (Saha.planckLarkin u (rows.map fun r =>
      ((value r.g : ℝ), E k + ipd k - ((value r.w : ℝ) + value r.f / 10 ^ r.f.length))) T) := by
  show Saha.heav0 (if k < Z then Saha.planckLarkin u _ T else 1) = _
  rw [if_pos hk]
  beta_reduce
  rw [hf, table_read header hh rows h]
  congr 2
  simp only [List.zip_map', List.map_map]
  refine List.map_congr_left fun r _ => ?_
  simp

/-! ### Examples -/

/-- The ground state of carbon in a table of the database. -/
def exampleRow : Row where
  before := "\"=\"\"2s2.2p2\"\"\",\"=\"\"3P\"\"\"".toList
  g := [9]
  w := [0]
  f := [0, 0, 3, 6, 7, 4]
  rest := ",\"=\"\"\"\"\"".toList

example : exampleRow.line = "\"=\"\"2s2.2p2\"\"\",\"=\"\"3P\"\"\",term,9,\"=\"\"0.003674\"\"\",\"=\"\"\"\"\"".toList := by decide +kernel

theorem exampleRow_ok : exampleRow.Ok := ⟨by decide +kernel, by decide, by decide⟩

/-- The first row of such a table. -/
def exampleHeader : List (List Char) := ["Configuration,Term,J,g,Level (eV)".toList]

theorem exampleHeader_ok : ∀ l ∈ exampleHeader, ¬mark <:+: l := by decide +kernel

example : readFile (exampleHeader ++ [exampleRow].map Row.line) = ([9], [3674 / 1000000]) := by
  have h := table_read exampleHeader exampleHeader_ok [exampleRow] fun r hr => by
    rw [List.mem_singleton.1 hr]; exact exampleRow_ok
  have hg : value exampleRow.g = 9 := by decide
  have hw : value exampleRow.w = 0 := by decide
  have hf : value exampleRow.f = 3674 := by decide
  have hl : exampleRow.f.length = 6 := rfl
  rw [h, List.map_singleton, List.map_singleton, hg, hw, hf, hl]
  norm_num

/-- A predicted level. -/
example : search (exampleRow.before ++ (mark ++ (text [1, 2] ++ (",\"=\"\"".toList ++ '[' :: "14.2]\"\"\"".toList)))) = none :=
  row_skipped (by decide +kernel) (by decide) rfl (by decide +kernel)

end Verif.Nist
