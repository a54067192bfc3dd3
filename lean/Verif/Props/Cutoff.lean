/-
The guessed limits of the interpolation of the collision frequency.
-/
import Verif.Model.Cutoff
import Verif.Props.Mermin

set_option autoImplicit false

namespace Verif.Cutoff

open Real Verif.Expt Verif.Resp

variable (u : Consts)

theorem maxOpt_none (a : Option ℝ) : maxOpt a none = none := by
  cases a <;> rfl

theorem maxNan_none {l : List (Option ℝ)} (h : none ∈ l) : maxNan l = none := by
  have key : ∀ (l : List (Option ℝ)) (a : Option ℝ), (a = none ∨ none ∈ l) →
      l.foldl maxOpt a = none := by
    intro l
    induction l with
    | nil => intro a h; simpa using h
    | cons b l ih =>
      intro a h
      apply ih
      rcases h with rfl | h
      · exact Or.inl rfl
      · rcases List.mem_cons.1 h with h | h
        · exact Or.inl (by rw [← h, maxOpt_none])
        · exact Or.inr h
  exact key l _ (Or.inr h)

theorem maxNan_some (l : List ℝ) (hl : l ≠ []) {c : ℝ} (h : ∀ x ∈ l, x < c) :
    ∃ y, maxNan (l.map some) = some y ∧ y < c := by
  have key : ∀ (l : List ℝ) (a : ℝ), a < c → (∀ x ∈ l, x < c) →
      ∃ y, (l.map some).foldl maxOpt (some a) = some y ∧ y < c := by
    intro l
    induction l with
    | nil => intro a ha _; exact ⟨a, rfl, ha⟩
    | cons b l ih =>
      intro a ha h
      exact ih (max a b) (max_lt ha (h b (by simp))) fun x hx => h x (by simp [hx])
  cases l with
  | nil => exact absurd rfl hl
  | cons a l => exact key (a :: l) a (h a (by simp)) h

theorem gtNan_none (a : Option ℝ) : gtNan a none = false := by
  cases a <;> rfl

theorem foldl_min_const (l : List ℝ) (c : ℝ) (h : ∀ x ∈ l, x = c) : l.foldl min c = c := by
  induction l with
  | nil => rfl
  | cons a l ih =>
    rw [List.foldl_cons, h a (by simp), min_self]
    exact ih fun x hx => h x (by simp [hx])

theorem foldl_min_le (l : List ℝ) (a : ℝ) : l.foldl min a ≤ a ∧ ∀ x ∈ l, l.foldl min a ≤ x := by
  induction l generalizing a with
  | nil => simp
  | cons b l ih =>
    obtain ⟨h1, h2⟩ := ih (min a b)
    refine ⟨h1.trans (min_le_left a b), ?_⟩
    intro x hx
    rcases List.mem_cons.1 hx with rfl | hx
    · exact h1.trans (min_le_right a x)
    · exact h2 x hx

theorem foldl_min_ge (l : List ℝ) {a c : ℝ} (ha : c ≤ a) (h : ∀ x ∈ l, c ≤ x) : c ≤ l.foldl min a := by
  induction l generalizing a with
  | nil => exact ha
  | cons b l ih =>
    exact ih (le_min ha (h b (by simp))) fun x hx => h x (by simp [hx])

theorem foldl_max_eq (l : List ℝ) {a c : ℝ} (ha : a ≤ c) (h : ∀ x ∈ l, x ≤ c) (hc : c ∈ l) :
    l.foldl max a = c := by
  have hle : ∀ (l : List ℝ) (a : ℝ), a ≤ c → (∀ x ∈ l, x ≤ c) → l.foldl max a ≤ c := by
    intro l
    induction l with
    | nil => intro a ha _; exact ha
    | cons b l ih => intro a ha h; exact ih _ (max_le ha (h b (by simp))) fun x hx => h x (by simp [hx])
  have hge : ∀ (l : List ℝ) (a x : ℝ), (x ≤ a ∨ x ∈ l) → x ≤ l.foldl max a := by
    intro l
    induction l with
    | nil => intro a x h; simpa using h
    | cons b l ih =>
      intro a x h
      apply ih
      rcases h with h | h
      · exact Or.inl (h.trans (le_max_left _ _))
      · rcases List.mem_cons.1 h with rfl | h
        · exact Or.inl (le_max_right _ _)
        · exact Or.inr h
  exact le_antisymm (hle l a ha h) (hge l a c (Or.inr hc))

theorem grid_mem {Emax x : ℝ} (hE : 0 ≤ Emax) (hx : x ∈ Resp.linspace 0 (10 * Emax) 500) :
    0 ≤ x ∧ x ≤ 10 * Emax := by
  simp only [Resp.linspace, List.mem_map, List.mem_range] at hx
  obtain ⟨i, hi, rfl⟩ := hx
  have h1 : (i : ℝ) ≤ 499 := by
    have : i ≤ 499 := by omega
    exact_mod_cast this
  have h0 : (0 : ℝ) ≤ i := Nat.cast_nonneg _
  norm_num
  constructor
  · positivity
  · have : (i : ℝ) * (10 * Emax / 499) = (i / 499) * (10 * Emax) := by ring
    rw [this]
    have h2 : (i : ℝ) / 499 ≤ 1 := by
      rw [div_le_one (by norm_num)]
      exact h1
    nlinarith

theorem grid_head (Emax : ℝ) :
    ∃ l, Resp.linspace 0 (10 * Emax) 500 = 0 :: l ∧ 10 * Emax ∈ l := by
  refine ⟨(List.range 499).map fun i : ℕ => 0 + ((i + 1 : ℕ) : ℝ) * ((10 * Emax - 0) / (((500 : ℕ) : ℝ) - 1)),
    ?_, ?_⟩
  · unfold Resp.linspace
    rw [show (500 : ℕ) = 499 + 1 from rfl, List.range_succ_eq_map, List.map_cons, List.map_map]
    simp [Function.comp_def]
  · rw [List.mem_map]
    refine ⟨498, by simp, ?_⟩
    norm_num
    ring

theorem grid_top {Emax : ℝ} (hE : 0 ≤ Emax) :
    (Resp.linspace 0 (10 * Emax) 500).foldl max ((Resp.linspace 0 (10 * Emax) 500).headD 0) =
      10 * Emax := by
  obtain ⟨l, hl, hm⟩ := grid_head Emax
  apply foldl_max_eq
  · rw [hl]
    simpa using hE
  · exact fun x hx => (grid_mem hE hx).2
  · rw [hl]
    exact List.mem_cons_of_mem _ hm

/-- If the value at zero energy is not a number, nothing is compared and the guess is fifteen times
the largest energy, or the largest energy if the Kramers-Kronig transform is off. -/
theorem guessMax_nan {See : ℝ → Option ℝ} (h : See 0 = none) {Emax : ℝ} (hE : 0 ≤ Emax) (KKT : Bool) :
    guessMax See Emax KKT = bif KKT then 15 * Emax else Emax := by
  obtain ⟨l, hl, hm⟩ := grid_head Emax
  have hb : maxNan (((Resp.linspace 0 (10 * Emax) 500).map See).map fun s => s.map (· * 1e-4)) = none := by
    apply maxNan_none
    rw [hl]
    simp [h]
  have hp : List.zipWith (fun s e => if gtNan s none then e else 10 * Emax)
      ((Resp.linspace 0 (10 * Emax) 500).map See) (Resp.linspace 0 (10 * Emax) 500) =
      List.replicate 500 (10 * Emax) := by
    rw [List.eq_replicate_iff]
    constructor
    · simp [linspace_length]
    · intro x hx
      rw [List.zipWith_map_left] at hx
      obtain ⟨i, hi, rfl⟩ := List.getElem_of_mem hx
      simp [gtNan_none]
  have hcut : |(List.replicate 500 (10 * Emax)).foldl min ((List.replicate 500 (10 * Emax)).headD 0) *
      1.5| = 15 * Emax := by
    have : (List.replicate 500 (10 * Emax)).headD 0 = 10 * Emax := rfl
    rw [this, foldl_min_const _ _ fun x hx => List.eq_of_mem_replicate hx, abs_of_nonneg (by linarith)]
    ring
  simp only [guessMax]
  rw [hb, grid_top hE, hp, hcut]
  cases KKT
  · exact min_eq_right (by linarith)
  · rfl

/-- With numbers everywhere, and a structure factor at zero energy above a ten-thousandth of its
maximum, the guess would be zero: the code takes the smallest energy with a notable signal. -/
theorem guessMax_finite {S : ℝ → ℝ} {Emax : ℝ} (hE : 0 ≤ Emax)
    (hS : ∀ E, 0 ≤ E → E ≤ 10 * Emax → S E * 1e-4 < S 0) (KKT : Bool) :
    guessMax (fun E => some (S E)) Emax KKT = 0 := by
  obtain ⟨l, hl, hm⟩ := grid_head Emax
  obtain ⟨y, hy, hlt⟩ := maxNan_some (c := S 0) ((Resp.linspace 0 (10 * Emax) 500).map fun E => S E * 1e-4)
    (by rw [hl]; simp) (by
      intro x hx
      rw [List.mem_map] at hx
      obtain ⟨E, hE', rfl⟩ := hx
      obtain ⟨h1, h2⟩ := grid_mem hE hE'
      exact hS E h1 h2)
  have hb : maxNan (((Resp.linspace 0 (10 * Emax) 500).map fun E => some (S E)).map
      fun s => s.map (· * 1e-4)) = some y := by
    rw [← hy, List.map_map, List.map_map]
    rfl
  simp only [guessMax]
  rw [hb, grid_top hE]
  have hhead : gtNan (some (S 0)) (some y) = true := by simpa [gtNan] using hlt
  have hcut : (List.zipWith (fun s e => if gtNan s (some y) then e else 10 * Emax)
      ((Resp.linspace 0 (10 * Emax) 500).map fun E => some (S E)) (Resp.linspace 0 (10 * Emax) 500)).foldl min
      ((List.zipWith (fun s e => if gtNan s (some y) then e else 10 * Emax)
      ((Resp.linspace 0 (10 * Emax) 500).map fun E => some (S E)) (Resp.linspace 0 (10 * Emax) 500)).headD 0) = 0 := by
    have hge : ∀ x ∈ List.zipWith (fun s e => if gtNan s (some y) then e else 10 * Emax)
        ((Resp.linspace 0 (10 * Emax) 500).map fun E => some (S E)) (Resp.linspace 0 (10 * Emax) 500),
        0 ≤ x := by
      intro x hx
      obtain ⟨i, hi, rfl⟩ := List.getElem_of_mem hx
      rw [List.getElem_zipWith]
      split_ifs
      · exact (grid_mem hE (List.getElem_mem _)).1
      · linarith
    have h0 : List.zipWith (fun s e => if gtNan s (some y) then e else 10 * Emax)
        ((Resp.linspace 0 (10 * Emax) 500).map fun E => some (S E)) (Resp.linspace 0 (10 * Emax) 500) =
        0 :: List.zipWith (fun s e => if gtNan s (some y) then e else 10 * Emax)
          (l.map fun E => some (S E)) l := by
      rw [hl, List.map_cons, List.zipWith_cons_cons, hhead, if_pos rfl]
    rw [h0] at hge ⊢
    apply le_antisymm
    · exact (foldl_min_le _ _).1
    · exact foldl_min_ge _ le_rfl hge
  rw [hcut, zero_mul, abs_zero]
  cases KKT
  · exact min_eq_left hE
  · rfl

/-- A structure factor that meets the hypothesis. -/
example : guessMax (fun E => some (1 / (1 + E ^ 2))) 3 true = 0 := by
  apply guessMax_finite (S := fun E => 1 / (1 + E ^ 2)) (by norm_num)
  intro E _ _
  have h : (1 : ℝ) / (1 + E ^ 2) ≤ 1 := by
    rw [div_le_one (by positivity)]
    nlinarith [sq_nonneg E]
  norm_num at h ⊢
  linarith

/-- C91: the guessed upper limit does not depend on the wave number, the temperature and the density;
it is the largest energy, or fifteen times that with the Kramers-Kronig transform. -/
theorem guessCutoffs_max (d : DandreaFits) (k T n : ℝ) {Emax : ℝ} (hE : 0 ≤ Emax) (KKT : Bool) :
    (guessCutoffs u d k T n Emax KKT).2 = bif KKT then 15 * Emax else Emax :=
  guessMax_nan (by simp [seeDandrea]) hE KKT

/-- C91: the limits are in order exactly if the plasma frequency is below twice (or fifteen million
times, with the Kramers-Kronig transform) the largest energy. -/
theorem guessCutoffs_ordered (d : DandreaFits) (k T n : ℝ) {Emax : ℝ} (hE : 0 ≤ Emax) (KKT : Bool) :
    (guessCutoffs u d k T n Emax KKT).1 < (guessCutoffs u d k T n Emax KKT).2 ↔
      plasmaFrequency u n * u.hbar < (bif KKT then 15000000 else 2) * Emax := by
  rw [guessCutoffs_max u d k T n hE]
  cases KKT
  · simp only [guessCutoffs, guessMin, cond_false]
    constructor <;> intro h <;> linarith
  · simp only [guessCutoffs, guessMin, cond_true]
    norm_num
    constructor <;> intro h <;> linarith

/-- The lower limit is positive. -/
theorem guessCutoffs_min_pos (d : DandreaFits) (k T : ℝ) {n : ℝ} (hn : 0 < n) (Emax : ℝ) (KKT : Bool) :
    0 < (guessCutoffs u d k T n Emax KKT).1 := by
  have h1 := u.hbar_pos
  have h2 := u.me_pos
  have h3 := u.e_pos
  have h4 := u.eps0_pos
  have : 0 < plasmaFrequency u n := by
    unfold plasmaFrequency
    positivity
  simp only [guessCutoffs, guessMin]
  cases KKT
  · simp only [cond_false]
    positivity
  · simp only [cond_true]
    positivity

/-- C91: if they are in order, the interpolated collision frequency has the symmetry of a response
function. -/
theorem guessCutoffs_hermitian (d : DandreaFits) (k T : ℝ) {n Emax : ℝ} (hn : 0 < n) (hE : 0 ≤ Emax)
    (h : plasmaFrequency u n * u.hbar < 2 * Emax) (nu : ℝ → ℂ) {N : ℕ} (hN : 0 < N) :
    Hermitian (chapmanNu nu (guessCutoffs u d k T n Emax false).1
      (guessCutoffs u d k T n Emax false).2 N) :=
  chapmanNu_hermitian nu (guessCutoffs_min_pos u d k T hn Emax false)
    ((guessCutoffs_ordered u d k T n hE false).2 h) hN

/-- A limit that was set stays, another becomes the guess; after `prepare` both are positive. -/
theorem prepareCutoff_pos {old guess : ℝ} (hg : 0 < guess) :
    0 < prepareCutoff old guess ∧ (0 < old → prepareCutoff old guess = old) := by
  unfold prepareCutoff
  constructor
  · split_ifs with h
    · exact h
    · exact hg
  · intro h
    rw [if_pos h]

end Verif.Cutoff
