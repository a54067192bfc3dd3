/-
Property C108: the thermal wavelengths of a plasma state.
-/
import Verif.Model.DbWavelength

set_option autoImplicit false

namespace Verif.DbWavelength

open Real Verif.Elements

variable (u : Expt.Consts)

/-- The property: for electrons and ions of the state there is one thermal wavelength `h / sqrt(2 π m k T)` each. -/
def Answers (f : List Par → Outcome (Option (List ℝ))) (mass : Par → ℝ) (Te : ℝ) (kind : List Par) : Prop :=
  f kind = .returned (some (kind.map fun p => 2 * π * u.hbar / sqrt (2 * π * mass p * u.kB * Te)))

/-- Ions of a state are elements or average atoms. -/
def Ions (ions : List Obj) : Prop := ions ≠ [] ∧ ∀ o ∈ ions, o ≠ .other

/-- Ask for electrons only. -/
def OnlyElectrons (kind : List Par) : Prop := ∀ p ∈ kind, p = .str "e-"

theorem pyEq_other {o : Obj} : pyEq o .other = .raised := by
  cases o <;> rfl

theorem isElectron_true {p : Par} : isElectron p = .ok true ↔ p = .str "e-" := by
  cases p with
  | str s =>
    simp only [isElectron, Par.str.injEq, Res.ok.injEq, decide_eq_true_eq]
  | obj o => cases o <;> simp [isElectron, pyEq, eqMethod]

/-- What is collected for electrons only. -/
theorem loop_electrons (Te : ℝ) (ions : List Obj) (kind : List Par) (h : OnlyElectrons kind) (acc : List ℝ) :
    loop u Te ions kind acc = .returned (acc ++ kind.map fun _ => electronWavelength u Te) := by
  induction kind generalizing acc with
  | nil => simp [loop]
  | cons p kind ih =>
    have hp : isElectron p = .ok true := isElectron_true.2 (h p (by simp))
    rw [loop, hp]
    simp only
    rw [ih (fun q hq => h q (by simp [hq]))]
    simp

/-- Everything else raises, whatever the ions are. -/
theorem loop_other (Te : ℝ) {ions : List Obj} (hi : Ions ions) (kind : List Par) (h : ¬ OnlyElectrons kind) (acc : List ℝ) :
    loop u Te ions kind acc = .notImplemented := by
  induction kind generalizing acc with
  | nil => exact absurd (fun p hp => by simp at hp) h
  | cons p kind ih =>
    rw [loop]
    by_cases hp : p = .str "e-"
    · rw [isElectron_true.2 hp]
      simp only
      refine ih (fun hk => h ?_) _
      intro q hq
      rcases List.mem_cons.1 hq with rfl | hq
      · exact hp
      · exact hk q hq
    · obtain ⟨hne, hall⟩ := hi
      obtain ⟨i, is, rfl⟩ := List.exists_cons_of_ne_nil hne
      have hin : p.toObj = .other → inIons p (i :: is) = .raised := by
        intro ho
        rw [inIons, ho, pyEq_other]
      cases p with
      | str s =>
        have : isElectron (.str s) = .ok false := by
          simp only [isElectron, Res.ok.injEq, decide_eq_false_iff_not]
          intro hs
          exact hp (by rw [hs])
        rw [this, hin rfl]
      | obj o =>
        cases o with
        | other => rw [show isElectron (.obj .other) = .ok false from rfl, hin rfl]
        | elem Z => rfl
        | mix z => rfl

/-- C108, what the function does, for every state and every request: `None` for electrons, an exception as soon as anything else is
asked for, also for the ions of the state. -/
theorem dbWavelength_eq (Te : ℝ) {ions : List Obj} (hi : Ions ions) (kind : List Par) :
    (OnlyElectrons kind → dbWavelength u Te ions kind = .returned none) ∧
      (¬ OnlyElectrons kind → dbWavelength u Te ions kind = .notImplemented) := by
  constructor
  · intro h
    rw [dbWavelength, loop_electrons u Te ions kind h]
  · intro h
    rw [dbWavelength, loop_other u Te hi kind h]

/-- C108 is false for every state and every request, whatever the masses are. -/
theorem dbWavelength_never (Te : ℝ) {ions : List Obj} (hi : Ions ions) (mass : Par → ℝ) (kind : List Par) :
    ¬ Answers u (dbWavelength u Te ions) mass Te kind := by
  intro h
  unfold Answers at h
  by_cases hk : OnlyElectrons kind
  · rw [(dbWavelength_eq u Te hi kind).1 hk] at h
    simp at h
  · rw [(dbWavelength_eq u Te hi kind).2 hk] at h
    simp at h

/-- C108, the part which holds: the numbers which are collected for the electrons, and then lost, are the thermal wavelengths of
`therm_de_broglie_wl`.  (Partial: they are not returned, and there are none for ions.) -/
theorem collected_partial {Te : ℝ} (hT : 0 < Te) (ions : List Obj) (kind : List Par) (h : OnlyElectrons kind) :
    loop u Te ions kind [] = .returned (kind.map fun _ => Resp.thermDeBroglie u Te) ∧ 0 < Resp.thermDeBroglie u Te := by
  have h1 := u.hbar_pos
  have h2 := u.me_pos
  have h3 := u.kB_pos
  have hpi := pi_pos
  constructor
  · rw [loop_electrons u Te ions kind h, List.nil_append]
    congr 1
    refine List.map_congr_left fun _ _ => ?_
    unfold electronWavelength Resp.thermDeBroglie
    have e : 2 * π / (u.me * u.kB * Te) = (2 * π) ^ 2 / (2 * π * 1 * u.me * 1 * u.kB * Te) := by
      field_simp
    rw [e, sqrt_div (by positivity), sqrt_sq (by positivity)]
    ring
  · unfold Resp.thermDeBroglie
    positivity

/-- Carbon and an average atom; electrons and carbon. -/
example : Ions [.elem 6, .mix 3.5] ∧ OnlyElectrons [.str "e-", .str "e-"] ∧ ¬ OnlyElectrons [.str "e-", .obj (.elem 6)] := by
  refine ⟨⟨by simp, by simp⟩, by simp [OnlyElectrons], ?_⟩
  intro h
  have := h (.obj (.elem 6)) (by simp)
  simp at this

end Verif.DbWavelength
