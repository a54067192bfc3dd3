/-
C46, C77: what the citation text of a state contains, when it raises, and what it leaves out.
-/
import Verif.Model.Citation

set_option autoImplicit false

namespace Verif.Citation

/-! ### Specification -/

/-- The models of a state with the text of each of them. -/
abbrev Texts := List (String × List String)

/-- Those with something to say. -/
def Texts.nonblank (ts : Texts) : Texts := ts.filter fun t => t.2.any fun l => !blank l

/-- The text in sections: the key of the model as a title, its text below, a blank line in between. -/
def Texts.sections (ts : Texts) : List String :=
  List.intercalate [""] (ts.nonblank.map fun t => t.1 :: t.2)

/-- A reference can be resolved. -/
def Known (bib : Bib) (refs : List Ref) : Prop := ∀ r ∈ refs, ∀ k ∈ r.keys, k ∈ bib.keys

/-! ### Sections -/

theorem nonblank_cons (t : String × List String) (ts : Texts) :
    Texts.nonblank (t :: ts) = if t.2.all blank then Texts.nonblank ts else t :: Texts.nonblank ts := by
  have : (t.2.any fun l => !blank l) = !t.2.all blank := by
    induction t.2 with
    | nil => rfl
    | cons a l ih => rw [List.any_cons, List.all_cons, ih, Bool.not_and]
  unfold Texts.nonblank
  rw [List.filter_cons, this]
  cases t.2.all blank <;> simp

theorem drop_flatMap (l : List (List String)) :
    (l.flatMap fun x => "" :: x).drop 1 = List.intercalate [""] l := by
  induction l with
  | nil => rfl
  | cons a l ih =>
    cases l with
    | nil => simp [List.intercalate]
    | cons b l =>
      simp only [List.flatMap_cons, List.cons_append, List.drop_succ_cons, List.drop_zero] at ih ⊢
      rw [ih]
      simp [List.intercalate, List.intersperse]

/-- The text of the loop. -/
theorem parts_eq (bib : Bib) (style : Style) (hs : style ≠ .bibtex) (ms : List (String × List Ref))
    (t : String × List Ref → List String) (ht : ∀ m ∈ ms, modelCitation bib style none m.2 = some (t m)) :
    parts bib style ms =
      some ((Texts.nonblank (ms.map fun m => (m.1, t m))).flatMap fun x => "" :: x.1 :: x.2) := by
  induction ms with
  | nil => rfl
  | cons m ms ih =>
    obtain ⟨key, refs⟩ := m
    have h := ht (key, refs) (by simp)
    rw [List.map_cons, nonblank_cons]
    simp only [parts, hs, if_false] at h ⊢
    rw [h, ih fun m hm => ht m (by simp [hm])]
    cases hb : (t (key, refs)).all blank <;>
      simp only [hb, Option.bind_eq_bind, Option.bind_some, if_true, Bool.false_eq_true, if_false, Option.pure_def,
        List.flatMap_cons, List.cons_append, List.nil_append]

/-- C46: in the styles "plain" and "cite" the citation of a state is, for its models in their order, the key and
the citation of the model, with a blank line in between; models without a citation are left out, and nothing else
is printed. -/
theorem citation_sections (bib : Bib) (style : Style) (hs : style ≠ .bibtex) (ms : List (String × List Ref))
    (t : String × List Ref → List String) (ht : ∀ m ∈ ms, modelCitation bib style none m.2 = some (t m)) :
    citation bib style ms = some (Texts.sections (ms.map fun m => (m.1, t m))) := by
  simp only [citation, parts_eq bib style hs ms t ht, Option.map_some, hs, if_false, Texts.sections]
  rw [← drop_flatMap, List.flatMap_map]

/-- C46: in the style "bibtex" it is the citations of the models, one after the other. -/
theorem citation_bibtex (bib : Bib) (ms : List (String × List Ref)) (t : String × List Ref → List String)
    (ht : ∀ m ∈ ms, modelCitation bib .bibtex (some m.1) m.2 = some (t m)) :
    citation bib .bibtex ms = some ((Texts.nonblank (ms.map fun m => (m.1, t m))).flatMap Prod.snd) := by
  simp only [citation, if_true, Option.map_id']
  induction ms with
  | nil => rfl
  | cons m ms ih =>
    obtain ⟨key, refs⟩ := m
    have h := ht (key, refs) (by simp)
    rw [List.map_cons, nonblank_cons]
    simp only [parts, if_true] at h ⊢
    rw [h, ih fun m hm => ht m (by simp [hm])]
    cases hb : (t (key, refs)).all blank <;>
      simp only [hb, Option.bind_eq_bind, Option.bind_some, if_true, Bool.false_eq_true, if_false, Option.pure_def,
        List.flatMap_cons, List.cons_append, List.nil_append]

/-! ### Each reference is printed -/

theorem modelCitation_eq (bib : Bib) (style : Style) (c : Option String) (refs : List Ref)
    (t : Ref → List String) (ht : ∀ r ∈ refs, refString bib style (withComment c r) = some (t r)) :
    modelCitation bib style c refs = some (refs.flatMap t) := by
  induction refs with
  | nil => rfl
  | cons r refs ih =>
    simp only [modelCitation, ht r (by simp), ih fun r hr => ht r (by simp [hr])]
    simp

/-- The line in the style "cite", written out. -/
def citeLine (r : Ref) : String :=
  (r.comment.map (· ++ "~")).getD "" ++ "\\cite{" ++ ",".intercalate r.keys ++ "}"

theorem modelCitation_cite (bib : Bib) (refs : List Ref) :
    modelCitation bib .cite none refs = some (refs.map citeLine) := by
  rw [modelCitation_eq bib .cite none refs fun r => [citeLine r]]
  · rw [← List.map_eq_flatMap]
  · rintro ⟨keys, comment⟩ -
    cases comment <;> simp [refString, withComment, citeLine, ← String.append_assoc]

theorem citeLine_nonblank (r : Ref) : blank (citeLine r) = false := by
  have : '}' ∈ (citeLine r).toList := by simp [citeLine]
  by_contra h
  simp only [Bool.not_eq_false, blank, List.all_eq_true] at h
  have := h _ this
  revert this
  decide

/-- C46: in the style "cite" the text is one section for each model with references: its key, and one line with
the comment and the keys for each reference, in their order. -/
theorem citation_cite (bib : Bib) (ms : List (String × List Ref)) :
    citation bib .cite ms =
      some (List.intercalate [""]
        ((ms.filter fun m => !m.2.isEmpty).map fun m => m.1 :: m.2.map citeLine)) := by
  rw [citation_sections bib .cite (by decide) ms (fun m => m.2.map citeLine)
    fun m _ => modelCitation_cite bib m.2]
  unfold Texts.sections Texts.nonblank
  rw [List.filter_map, List.map_map]
  congr 3
  apply List.filter_congr
  rintro ⟨key, refs⟩ -
  cases refs with
  | nil => rfl
  | cons r refs => simp [citeLine_nonblank]

/-! ### Exceptions -/

theorem refString_none (bib : Bib) (style : Style) (r : Ref) :
    refString bib style r = none ↔ style ≠ .cite ∧ ∃ k ∈ r.keys, k ∉ bib.keys := by
  cases style <;> simp [refString]

theorem modelCitation_none (bib : Bib) (style : Style) (c : Option String) (refs : List Ref) :
    modelCitation bib style c refs = none ↔ style ≠ .cite ∧ ¬ Known bib refs := by
  induction refs with
  | nil => simp [modelCitation, Known]
  | cons r refs ih =>
    have h1 := refString_none bib style (withComment c r)
    have hk : (withComment c r).keys = r.keys := rfl
    rw [hk] at h1
    have h2 : ¬ Known bib (r :: refs) ↔ (∃ k ∈ r.keys, k ∉ bib.keys) ∨ ¬ Known bib refs := by
      simp only [Known, List.mem_cons, forall_eq_or_imp, not_and_or]
      simp
    rw [h2, and_or_left, ← h1, ← ih, modelCitation]
    cases refString bib style (withComment c r) <;> cases modelCitation bib style c refs <;> simp

theorem parts_none (bib : Bib) (style : Style) (ms : List (String × List Ref)) :
    parts bib style ms = none ↔ style ≠ .cite ∧ ∃ m ∈ ms, ¬ Known bib m.2 := by
  induction ms with
  | nil => simp [parts]
  | cons m ms ih =>
    obtain ⟨key, refs⟩ := m
    have h1 := modelCitation_none bib style (if style = .bibtex then some key else none) refs
    simp only [List.mem_cons, exists_eq_or_imp]
    rw [and_or_left, ← h1, ← ih, parts]
    cases modelCitation bib style (if style = .bibtex then some key else none) refs with
    | none => simp
    | some t =>
      cases parts bib style ms with
      | none => simp
      | some rest =>
        simp only [Option.bind_eq_bind, Option.bind_some]
        split_ifs <;> simp

/-- C46: the citation of a state raises exactly if a model cites a key which is not in the file (never in the
style "cite"). -/
theorem citation_raises_iff (bib : Bib) (style : Style) (ms : List (String × List Ref)) :
    citation bib style ms = none ↔ style ≠ .cite ∧ ∃ m ∈ ms, ∃ r ∈ m.2, ∃ k ∈ r.keys, k ∉ bib.keys := by
  rw [citation, Option.map_eq_none_iff, parts_none]
  simp [Known]

/-- All classes, whole table. -/
theorem table_known :
    ∀ t ∈ classTable, ∀ r ∈ t.2.1 ++ t.2.2.1 ++ t.2.2.2, r.keys ≠ [] ∧ ∀ k ∈ r.keys, k ∈ bibKeys := by
  decide +kernel

theorem citeKeys_known (cls : String) (flag : Bool) (refs : List Ref) (h : citeKeys cls flag = some refs) :
    ∀ r ∈ refs, r.keys ≠ [] ∧ ∀ k ∈ r.keys, k ∈ bibKeys := by
  rw [citeKeys, Option.map_eq_some_iff] at h
  obtain ⟨t, ht, rfl⟩ := h
  have hm : (cls, t) ∈ classTable := by
    rw [List.lookup_eq_some_iff] at ht
    obtain ⟨l₁, l₂, h, -⟩ := ht
    rw [h]
    simp
  intro r hr
  apply table_known _ hm
  cases flag <;> simp at hr ⊢ <;> tauto

/-- C46: with the file of the package, the citation of a state of built-in models never raises, in any style. -/
theorem citation_builtin (bib : Bib) (hb : bib.keys = bibKeys) (style : Style)
    (ms : List (String × String × Bool)) (refs : String × String × Bool → List Ref)
    (h : ∀ m ∈ ms, citeKeys m.2.1 m.2.2 = some (refs m)) :
    (citation bib style (ms.map fun m => (m.1, refs m))).isSome := by
  rw [Option.isSome_iff_ne_none, ne_eq, citation_raises_iff]
  rintro ⟨-, m, hm, r, hr, k, hk, hk'⟩
  simp only [List.mem_map] at hm
  obtain ⟨m, hm, rfl⟩ := hm
  rw [hb] at hk'
  exact hk' ((citeKeys_known _ _ _ (h m hm) r hr).2 k hk)

/-! ### What is left out -/

/-- C77: a model without `cite_keys` contributes nothing, whatever it is composed of. -/
theorem citation_without (bib : Bib) (style : Style) (a b : List (String × List Ref)) (key : String) :
    citation bib style (a ++ (key, []) :: b) = citation bib style (a ++ b) := by
  unfold citation
  congr 1
  induction a with
  | nil => simp [parts, modelCitation]
  | cons m a ih =>
    obtain ⟨k, refs⟩ := m
    simp only [List.cons_append, parts, ih]

/-- C77 fails: a sum of ionization potential depressions, and a sum or a multiple of potentials, has no references
of its own and those of its members are lost: a state with it cites the same as without any model at this key,
although each of the members alone is cited. -/
theorem composites_not_cited (bib : Bib) (style : Style) (a b : List (String × List Ref)) (key : String)
    (flag : Bool) (cls : String) (h : cls ∈ ["IPDSum", "PotentialSum", "ScaledPotential"]) :
    ∃ refs, citeKeys cls flag = some refs ∧
      citation bib style (a ++ (key, refs) :: b) = citation bib style (a ++ b) := by
  refine ⟨[], ?_, citation_without bib style a b key⟩
  have : ∀ c ∈ ["IPDSum", "PotentialSum", "ScaledPotential"], ∀ f : Bool, citeKeys c f = some [] := by
    decide +kernel
  exact this cls h flag

/-- The members which can be added, Debye-Hückel and Stewart-Pyatt here, are cited alone. -/
example (bib : Bib) :
    ((citeKeys "DebyeHueckelIPD" false).bind fun r => citation bib .cite [("ipd", r)]) =
        some ["ipd", "\\cite{Debye.1923}", "\\cite{Crowley.2014}"] ∧
      ((citeKeys "IPDSum" false).bind fun r => citation bib .cite [("ipd", r)]) = some [] := by
  constructor
  · have : citeKeys "DebyeHueckelIPD" false =
        some [⟨["Debye.1923"], none⟩, ⟨["Crowley.2014"], none⟩] := by decide +kernel
    rw [this, Option.bind_some, citation_cite]
    decide +kernel
  · have : citeKeys "IPDSum" false = some [] := by decide +kernel
    rw [this, Option.bind_some, citation_cite]
    decide +kernel

/-! ### Entries in the format of bibtex -/

/-- The keys in the entries which are printed, in their order. -/
def printed (ms : List (String × List Ref)) : List String :=
  ms.flatMap fun m => m.2.flatMap Ref.keys

/-- The note of an entry: key of the model and comment. -/
def note (key : String) (r : Ref) : Option String :=
  some (key ++ (r.comment.map (". " ++ ·)).getD "")

/-- C46: in the style "bibtex" an entry is printed for every reference of every model, with the key of the model
and the comment as a note. -/
theorem bibtex_entries (bib : Bib) (ms : List (String × List Ref)) (hk : ∀ m ∈ ms, Known bib m.2)
    (hn : ∀ k c, (bib.bibtex k c).any fun l => !blank l) (hr : ∀ m ∈ ms, ∀ r ∈ m.2, r.keys ≠ []) :
    citation bib .bibtex ms = some (ms.flatMap fun m => m.2.flatMap fun r =>
      r.keys.flatMap fun k => bib.bibtex k (note m.1 r)) := by
  rw [citation_bibtex bib ms fun m => m.2.flatMap fun r => r.keys.flatMap fun k => bib.bibtex k (note m.1 r)]
  · congr 1
    have : Texts.nonblank (ms.map fun m => (m.1, m.2.flatMap fun r => r.keys.flatMap fun k =>
        bib.bibtex k (note m.1 r))) = (ms.filter fun m => !m.2.isEmpty).map fun m =>
          (m.1, m.2.flatMap fun r => r.keys.flatMap fun k => bib.bibtex k (note m.1 r)) := by
      rw [Texts.nonblank, List.filter_map]
      congr 1
      apply List.filter_congr
      rintro ⟨key, refs⟩ hm
      cases refs with
      | nil => rfl
      | cons r refs =>
        obtain ⟨k, ks, hks⟩ := List.exists_cons_of_ne_nil (hr _ hm r (by simp))
        have := hn k (note key r)
        simp only [List.any_eq_true] at this
        obtain ⟨l, hl, hl'⟩ := this
        simp only [Function.comp_apply, List.isEmpty_cons, Bool.not_false, List.any_eq_true]
        exact ⟨l, by simp [hks, hl], hl'⟩
    rw [this, List.flatMap_map]
    clear this hk hr
    induction ms with
    | nil => rfl
    | cons m ms ih =>
      obtain ⟨key, refs⟩ := m
      cases refs with
      | nil => simpa using ih
      | cons r refs => simp only [List.filter_cons, List.isEmpty_cons, Bool.not_false, if_true,
          List.flatMap_cons, ih]
  · rintro ⟨key, refs⟩ hm
    apply modelCitation_eq
    rintro ⟨keys, comment⟩ hr
    have h : keys.all (bib.keys.contains ·) = true := by
      simpa [List.all_eq_true] using hk _ hm _ hr
    cases comment <;> simp [refString, withComment, note, String.append_assoc] <;> simpa using h

/-- C77 fails: an entry is printed as often as it is cited; bibtex refuses a file with two entries of the same
key.  Already a single built-in model does so: each of the Born-Mermin models without `RPA_rewrite` prints
Schorner.2023 twice. -/
theorem bibtex_repeats (key cls : String)
    (h : cls ∈ ["BornMermin_Full", "BornMermin", "BornMermin_Fit", "BornMermin_Fortmann"]) :
    ∃ refs, citeKeys cls false = some refs ∧ (printed [(key, refs)]).count "Schorner.2023" = 2 := by
  have : ∀ c ∈ ["BornMermin_Full", "BornMermin", "BornMermin_Fit", "BornMermin_Fortmann"],
      ((citeKeys c false).map fun refs => (refs.flatMap Ref.keys).count "Schorner.2023") = some 2 := by
    decide +kernel
  obtain ⟨refs, h1, h2⟩ := Option.map_eq_some_iff.mp (this cls h)
  exact ⟨refs, h1, by simpa [printed] using h2⟩

/-- C77, the part which holds: except for these, no class prints an entry twice: whole table. -/
theorem bibtex_single_partial (cls : String) (flag : Bool) (refs : List Ref) (key : String)
    (h : citeKeys cls flag = some refs) (hd : ¬ (printed [(key, refs)]).Nodup) :
    cls ∈ ["BornMermin_Full", "BornMermin", "BornMermin_Fit", "BornMermin_Fortmann"] ∧ flag = false := by
  have tab : ∀ t ∈ classTable, ∀ f : Bool,
      ((t.2.1 ++ if f then t.2.2.1 else t.2.2.2).flatMap Ref.keys).Nodup ∨
      (t.1 ∈ ["BornMermin_Full", "BornMermin", "BornMermin_Fit", "BornMermin_Fortmann"] ∧ f = false) := by
    decide +kernel
  rw [citeKeys, Option.map_eq_some_iff] at h
  obtain ⟨t, ht, rfl⟩ := h
  have hm : (cls, t) ∈ classTable := by
    rw [List.lookup_eq_some_iff] at ht
    obtain ⟨l₁, l₂, h, -⟩ := ht
    rw [h]
    simp
  rcases tab _ hm flag with h | h
  · exact absurd (by simpa [printed] using h) hd
  · exact h

/-- Two models which cite the same work print it twice. -/
example : printed [("a", [⟨["Crowley.2014"], none⟩]), ("b", [⟨["Crowley.2014"], none⟩])] =
    ["Crowley.2014", "Crowley.2014"] := rfl

/-- A bibliography which prints its keys meets the hypotheses of `bibtex_entries`. -/
example : ∃ bib : Bib, bib.keys = bibKeys ∧ ∀ k c, (bib.bibtex k c).any fun l => !blank l :=
  ⟨⟨bibKeys, id, fun k _ => ["@article{" ++ k ++ "}"]⟩, rfl, fun k c => by
    have : '}' ∈ ("@article{" ++ k ++ "}").toList := by simp
    simp only [List.any_cons, List.any_nil, Bool.or_false, Bool.not_eq_true']
    by_contra h
    simp only [Bool.not_eq_false, blank, List.all_eq_true] at h
    have := h _ this
    revert this
    decide⟩

end Verif.Citation
