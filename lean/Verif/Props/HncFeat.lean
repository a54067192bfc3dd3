/-
Property C75: the ion feature models which use the hypernetted chain scheme.
-/
import Verif.Model.HncFeat
import Verif.Props.HncSpecies
import Verif.Props.PotentialLimits
import Verif.Props.Interp
import Mathlib.LinearAlgebra.Matrix.PosDef

set_option autoImplicit false

namespace Verif.HncFeat

open Real Verif.Hnc Verif.Ssf Verif.Interp Verif.Expt Verif.Pot

variable {m : ℕ}

/-! ### The matrix of the potentials -/

section

variable {α : Type} (Vii Vei Vee : Fin (m + 1) → Fin (m + 1) → α)

/-- Two ions interact with the ion-ion potential. -/
theorem assemble_ions (a b : Fin m) : assemble Vii Vei Vee a.castSucc b.castSucc = Vii a.castSucc b.castSucc := by
  simp [assemble, Fin.castSucc_ne_last]

/-- An ion and the electrons interact with the electron-ion potential. -/
theorem assemble_electron_ion (a : Fin m) :
    assemble Vii Vei Vee a.castSucc (Fin.last m) = Vei a.castSucc (Fin.last m) ∧
      assemble Vii Vei Vee (Fin.last m) a.castSucc = Vei (Fin.last m) a.castSucc := by
  constructor <;> simp [assemble, Fin.castSucc_ne_last]

/-- The electrons interact with the electron-electron potential. -/
theorem assemble_electrons : assemble Vii Vei Vee (Fin.last m) (Fin.last m) = Vee (Fin.last m) (Fin.last m) := by
  simp [assemble]

variable {Vii Vei Vee}

/-- The matrix is symmetric if the three potentials are. -/
theorem assemble_symm (hii : PairSymm Vii) (hei : PairSymm Vei) : PairSymm (assemble Vii Vei Vee) := by
  intro a b
  refine Fin.lastCases ?_ (fun a => ?_) a <;> refine Fin.lastCases ?_ (fun b => ?_) b
  · rfl
  · rw [(assemble_electron_ion _ _ _ b).1, (assemble_electron_ion _ _ _ b).2]
    exact hei _ _
  · rw [(assemble_electron_ion _ _ _ a).1, (assemble_electron_ion _ _ _ a).2]
    exact hei _ _
  · rw [assemble_ions, assemble_ions]
    exact hii _ _

end

/-- C74: every method of every potential returns a symmetric matrix. -/
theorem potMatrix_symm {u : Consts} (p : Plasma) (hk : ∀ a b, p.kappa a b = p.kappa b a) (mode : Mode)
    (method : Pair → Leaf → Option (ℝ → ℝ)) (V : Potential) (x : ℕ → ℝ) (a b : Fin m) (j : ℕ) :
    potMatrix (u := u) p mode method V x a b j = potMatrix (u := u) p mode method V x b a j := by
  unfold potMatrix
  rw [pair_symm u p mode a b (hk _ _)]

/-- The interpolation keeps the symmetry. -/
theorem sIi_symm (c : Settings) (n : Fin m → ℝ) {g : Fin m → Fin m → ℕ → ℝ} (hg : PairSymm g) (k : ℝ) :
    PairSymm (hncInterp c (sIiHNC (2 ^ c.pot) c.k c.r n g) k) := by
  intro a b
  unfold hncInterp
  congr 1
  funext i
  have key : ∀ i, sK (2 ^ c.pot) c.k c.r n g i a b = sK (2 ^ c.pot) c.k c.r n g i b a := by
    intro i
    unfold sK
    rw [hg a b, mul_comm (n a), if_congr (eq_comm (a := a) (b := b)) rfl rfl]
  unfold sIiHNC
  split
  · exact key 1
  · exact key i

/-- C75: the structure factors of `OnePotentialHNCIonFeat` are symmetric, for all potentials. -/
theorem one_symm {u : Consts} (p : Plasma) (hk : ∀ a b, p.kappa a b = p.kappa b a) (V : Potential) (G : Grid) (c : Settings)
    {Vs Vlk : Fin m → Fin m → ℕ → ℝ} (hs : ∀ a b j, potMatrix (u := u) p .off (shortR u) V c.r a b j = some (Vs a b j))
    (hl : ∀ a b j, potMatrix (u := u) p .off (longK u G) V c.k a b j = some (Vlk a b j)) {n : Fin m → ℝ} {k : ℝ}
    {S : Fin m → Fin m → ℝ} (h : OneReturns c u.kB Vs Vlk (fun a b => p.T u .off a b) n k S) : PairSymm S := by
  have key : ∀ (method : Pair → Leaf → Option (ℝ → ℝ)) (V : Potential) (x : ℕ → ℝ) (W : Fin m → Fin m → ℕ → ℝ),
      (∀ a b j, potMatrix (u := u) p .off method V x a b j = some (W a b j)) → PairSymm W := by
    intro method V x W hW a b
    funext j
    exact Option.some.inj (by rw [← hW, ← hW, potMatrix_symm p hk])
  obtain ⟨g, it, hg, rfl⟩ := h
  refine sIi_symm c n ?_ k
  intro a b
  funext j
  refine Input.returns_symm ⟨?_, ?_, ?_⟩ hg a b j
  · exact key _ _ _ _ hs
  · exact key _ _ _ _ hl
  · intro a b
    have := congrArg Pair.T (pair_symm u p .off a b (hk _ _))
    exact this

/-- C75: the structure factors of `ThreePotentialHNCIonFeat` are symmetric, for all potentials. -/
theorem three_symm {u : Consts} (p : Plasma) (hk : ∀ a b, p.kappa a b = p.kappa b a) (Vii Vei : Potential) (Gii Gei : Grid)
    (c : Settings) {sii sei see lii lei lee : Fin (m + 1) → Fin (m + 1) → ℕ → ℝ}
    (hsii : ∀ a b j, potMatrix (u := u) p .averaged (shortR u) Vii c.r a b j = some (sii a b j))
    (hsei : ∀ a b j, potMatrix (u := u) p .averaged (shortR u) Vei c.r a b j = some (sei a b j))
    (hlii : ∀ a b j, potMatrix (u := u) p .averaged (longK u Gii) Vii c.k a b j = some (lii a b j))
    (hlei : ∀ a b j, potMatrix (u := u) p .averaged (longK u Gei) Vei c.k a b j = some (lei a b j))
    {n : Fin m → ℝ} {ne k : ℝ} {S : Fin (m + 1) → Fin (m + 1) → ℝ}
    (h : ThreeReturns c (threeInput c u.kB sii sei see lii lei lee (fun a b => p.T u .averaged a b) n ne) k S) :
    PairSymm S := by
  have key : ∀ (method : Pair → Leaf → Option (ℝ → ℝ)) (V : Potential) (x : ℕ → ℝ) (W : Fin (m + 1) → Fin (m + 1) → ℕ → ℝ),
      (∀ a b j, potMatrix (u := u) p .averaged method V x a b j = some (W a b j)) → PairSymm W := by
    intro method V x W hW a b
    funext j
    exact Option.some.inj (by rw [← hW, ← hW, potMatrix_symm p hk])
  obtain ⟨g, it, hg, rfl⟩ := h
  refine sIi_symm c _ ?_ k
  intro a b
  funext j
  refine Input.returns_symm ⟨?_, ?_, ?_⟩ hg a b j
  · exact assemble_symm (key _ _ _ _ hsii) (key _ _ _ _ hsei)
  · exact assemble_symm (key _ _ _ _ hlii) (key _ _ _ _ hlei)
  · intro a b
    have := congrArg Pair.T (pair_symm u p .averaged a b (hk _ _))
    exact this

/-- C75: the structure factors of `OnePotentialHNCIonFeat` with several temperatures are symmetric, for all potentials. -/
theorem one_svt_symm {u : Consts} (p : Plasma) (hk : ∀ a b, p.kappa a b = p.kappa b a) (V : Potential) (G : Grid) (c : Settings)
    {Vs Vlk : Fin m → Fin m → ℕ → ℝ} (hs : ∀ a b j, potMatrix (u := u) p .off (shortR u) V c.r a b j = some (Vs a b j))
    (hl : ∀ a b j, potMatrix (u := u) p .off (longK u G) V c.k a b j = some (Vlk a b j)) {n mass : Fin m → ℝ}
    (hm : ∀ a, 0 < mass a) {k : ℝ} {S : Fin m → Fin m → ℝ}
    (h : OneSvtReturns c u.kB Vs Vlk (fun a b => p.T u .off a b) n mass k S) : PairSymm S := by
  have key : ∀ (method : Pair → Leaf → Option (ℝ → ℝ)) (V : Potential) (x : ℕ → ℝ) (W : Fin m → Fin m → ℕ → ℝ),
      (∀ a b j, potMatrix (u := u) p .off method V x a b j = some (W a b j)) → PairSymm W := by
    intro method V x W hW a b
    funext j
    exact Option.some.inj (by rw [← hW, ← hW, potMatrix_symm p hk])
  obtain ⟨g, it, hg, rfl⟩ := h
  refine sIi_symm c n ?_ k
  intro a b
  funext j
  refine Input.svtReturns_symm ⟨?_, ?_, ?_⟩ hm hg a b j
  · exact key _ _ _ _ hs
  · exact key _ _ _ _ hl
  · intro a b
    have := congrArg Pair.T (pair_symm u p .off a b (hk _ _))
    exact this

/-- C75: the structure factors of `ThreePotentialHNCIonFeat` with several temperatures are symmetric, for all potentials. -/
theorem three_svt_symm {u : Consts} (p : Plasma) (hk : ∀ a b, p.kappa a b = p.kappa b a) (Vii Vei : Potential) (Gii Gei : Grid)
    (c : Settings) {sii sei see lii lei lee : Fin (m + 1) → Fin (m + 1) → ℕ → ℝ}
    (hsii : ∀ a b j, potMatrix (u := u) p .averaged (shortR u) Vii c.r a b j = some (sii a b j))
    (hsei : ∀ a b j, potMatrix (u := u) p .averaged (shortR u) Vei c.r a b j = some (sei a b j))
    (hlii : ∀ a b j, potMatrix (u := u) p .averaged (longK u Gii) Vii c.k a b j = some (lii a b j))
    (hlei : ∀ a b j, potMatrix (u := u) p .averaged (longK u Gei) Vei c.k a b j = some (lei a b j))
    {n mass : Fin m → ℝ} {me ne k : ℝ} (hm : ∀ a, 0 < mass a) (hme : 0 < me) {S : Fin (m + 1) → Fin (m + 1) → ℝ}
    (h : ThreeSvtReturns c (threeInput c u.kB sii sei see lii lei lee (fun a b => p.T u .averaged a b) n ne) mass me k S) :
    PairSymm S := by
  have key : ∀ (method : Pair → Leaf → Option (ℝ → ℝ)) (V : Potential) (x : ℕ → ℝ) (W : Fin (m + 1) → Fin (m + 1) → ℕ → ℝ),
      (∀ a b j, potMatrix (u := u) p .averaged method V x a b j = some (W a b j)) → PairSymm W := by
    intro method V x W hW a b
    funext j
    exact Option.some.inj (by rw [← hW, ← hW, potMatrix_symm p hk])
  have hm' : ∀ a, 0 < withNe mass me a := by
    intro a
    refine Fin.lastCases ?_ (fun a => ?_) a
    · simpa [withNe] using hme
    · simpa [withNe] using hm a
  obtain ⟨g, it, hg, rfl⟩ := h
  refine sIi_symm c _ ?_ k
  intro a b
  funext j
  refine Input.svtReturns_symm ⟨?_, ?_, ?_⟩ hm' hg a b j
  · exact assemble_symm (key _ _ _ _ hsii) (key _ _ _ _ hsei)
  · exact assemble_symm (key _ _ _ _ hlii) (key _ _ _ _ hlei)
  · intro a b
    have := congrArg Pair.T (pair_symm u p .averaged a b (hk _ _))
    exact this

/-! ### The screening -/

/-- Specification: `q a` is the number of electrons which follow an ion of the species `a`.  The density of the
electrons is `∑ b, q b n_b(k)`, so that it is correlated with the ions `a` like this. -/
def IsScreening (n : Fin m → ℝ) (ne : ℝ) (S : Fin m → Fin m → ℝ) (Se : Fin m → ℝ) (q : Fin m → ℝ) : Prop :=
  ∀ a, Se a = ∑ b, sqrt (n b / ne) * q b * S a b

/-- C75: for one species of ions the screening is the one which follows from the correlations. -/
theorem three_screening {n Z : Fin 1 → ℝ} (hn : 0 < n 0) (hZ : 0 < Z 0) {S : Fin 2 → Fin 2 → ℝ} (hS : S 0 0 ≠ 0) (q : Fin 1 → ℝ) :
    IsScreening n (n 0 * Z 0) (ions S) (fun a => S a.castSucc (Fin.last 1)) q ↔ q = threeQ Z S := by
  have hx : sqrt (n 0 / (n 0 * Z 0)) * sqrt (Z 0) = 1 := by
    rw [← sqrt_mul (by positivity), show n 0 / (n 0 * Z 0) * Z 0 = 1 by field_simp, sqrt_one]
  have hs : sqrt (n 0 / (n 0 * Z 0)) ≠ 0 := left_ne_zero_of_mul_eq_one hx
  have h1 : IsScreening n (n 0 * Z 0) (ions S) (fun a => S a.castSucc (Fin.last 1)) q ↔
      S 0 1 = sqrt (n 0 / (n 0 * Z 0)) * q 0 * S 0 0 := by
    unfold IsScreening ions
    rw [Fin.forall_fin_one]
    simp
  have h2 : q = threeQ Z S ↔ q 0 = sqrt (Z 0) * S 0 1 / S 0 0 := by
    rw [funext_iff, Fin.forall_fin_one]
    rfl
  rw [h1, h2]
  generalize sqrt (n 0 / (n 0 * Z 0)) = t at hx hs
  constructor
  · intro h
    rw [h]
    field_simp
    linear_combination -q 0 * hx
  · intro h
    rw [h]
    field_simp
    linear_combination -S 0 1 * hx

/-- C75: for one species, the Rayleigh weight is the square of form factor and screening, times the structure
factor. -/
theorem three_rayleigh_single (s : Mix 1) (hn : s.n 0 ≠ 0) (f : Fin 1 → ℝ) (S : Fin 2 → Fin 2 → ℝ) :
    threeRayleigh s f S = (f 0 + sqrt (s.Z 0) * S 0 1 / S 0 0) ^ 2 * S 0 0 := by
  have hx : s.x 0 = 1 := by simp [Mix.x, hn]
  unfold threeRayleigh
  simp only [Fin.sum_univ_one, hx]
  show sqrt (1 * 1) * (f 0 + sqrt (s.Z 0) * S 0 1 / S 0 0) * (f 0 + sqrt (s.Z 0) * S 0 1 / S 0 0) * S 0 0 = _
  rw [mul_one, sqrt_one]
  ring

/-- C75: in a mixture the screening is wrong, even if the species of ions are not correlated with each other: it is
right for a species only if this species provides all electrons. -/
theorem three_screening_uncorrelated {n Z : Fin m → ℝ} (hn : ∀ a, 0 < n a) {ne : ℝ} (hne : 0 < ne)
    {S : Fin (m + 1) → Fin (m + 1) → ℝ} (hd : ∀ a b : Fin m, a ≠ b → S a.castSucc b.castSucc = 0)
    (hS : ∀ a : Fin m, S a.castSucc a.castSucc ≠ 0) (he : ∀ a : Fin m, S a.castSucc (Fin.last m) ≠ 0) :
    IsScreening n ne (ions S) (fun a => S a.castSucc (Fin.last m)) (threeQ Z S) ↔ ∀ a, n a * Z a = ne := by
  unfold IsScreening
  refine forall_congr' fun a => ?_
  rw [Finset.sum_eq_single a (fun b _ hb => by rw [ions, hd a b hb.symm, mul_zero]) (by simp)]
  show S a.castSucc (Fin.last m) = sqrt (n a / ne) * (sqrt (Z a) * S a.castSucc (Fin.last m) / S a.castSucc a.castSucc) *
    S a.castSucc a.castSucc ↔ _
  have e : sqrt (n a / ne) * (sqrt (Z a) * S a.castSucc (Fin.last m) / S a.castSucc a.castSucc) * S a.castSucc a.castSucc =
      sqrt (n a / ne * Z a) * S a.castSucc (Fin.last m) := by
    rw [sqrt_mul (div_nonneg (hn a).le hne.le)]
    have := hS a
    field_simp
  rw [e]
  have h1 : S a.castSucc (Fin.last m) = sqrt (n a / ne * Z a) * S a.castSucc (Fin.last m) ↔ sqrt (n a / ne * Z a) = 1 := by
    constructor
    · intro h
      have := he a
      exact mul_right_cancel₀ this (by rw [one_mul]; exact h.symm)
    · intro h
      rw [h, one_mul]
  rw [h1, sqrt_eq_one]
  constructor
  · intro h
    field_simp at h
    exact h
  · intro h
    field_simp
    exact h

/-- C75: so the screening is wrong for every uncorrelated mixture of two or more ionized species. -/
theorem three_screening_fails (hm : 2 ≤ m) {n Z : Fin m → ℝ} (hn : ∀ a, 0 < n a) (hZ : ∀ a, 0 < Z a)
    {S : Fin (m + 1) → Fin (m + 1) → ℝ} (hd : ∀ a b : Fin m, a ≠ b → S a.castSucc b.castSucc = 0)
    (hS : ∀ a : Fin m, S a.castSucc a.castSucc ≠ 0) (he : ∀ a : Fin m, S a.castSucc (Fin.last m) ≠ 0) :
    ¬IsScreening n (∑ a, n a * Z a) (ions S) (fun a => S a.castSucc (Fin.last m)) (threeQ Z S) := by
  have h0 : ∀ a, 0 < n a * Z a := fun a => mul_pos (hn a) (hZ a)
  have hne : 0 < ∑ a, n a * Z a := Finset.sum_pos (fun a _ => h0 a) ⟨⟨0, by omega⟩, Finset.mem_univ _⟩
  rw [three_screening_uncorrelated hn hne hd hS he]
  intro h
  have h1 : ∑ a, n a * Z a = n ⟨0, by omega⟩ * Z ⟨0, by omega⟩ + ∑ a ∈ Finset.univ.erase ⟨0, by omega⟩, n a * Z a :=
    (Finset.add_sum_erase _ _ (Finset.mem_univ _)).symm
  have h2 : 0 < ∑ a ∈ Finset.univ.erase (⟨0, by omega⟩ : Fin m), n a * Z a :=
    Finset.sum_pos (fun a _ => h0 a) ⟨⟨1, by omega⟩, by simp⟩
  have h3 := h ⟨0, by omega⟩
  linarith

/-! ### Examples -/

/-- A calculation always returns, for potentials which do not raise: here for two ions with charges 1 and 2
and for electrons. -/
example (u : Consts) : ∃ (p : Plasma) (c : Settings) (G : Grid) (s l : Fin 3 → Fin 3 → ℕ → ℝ) (S : Fin 3 → Fin 3 → ℝ), p.Z = [1, 2] ∧
    (∀ a b, p.kappa a b = p.kappa b a) ∧
    (∀ a b j, potMatrix (u := u) p .averaged (shortR u) (.leaf .coulomb) c.r a b j = some (s a b j)) ∧
    (∀ a b j, potMatrix (u := u) p .averaged (longK u G) (.leaf .coulomb) c.k a b j = some (l a b j)) ∧
    ThreeReturns c (threeInput c u.kB s s s l l l (fun a b => p.T u .averaged a b) ![1, 1] 3) 1 S := by
  obtain ⟨p, c, hp⟩ : ∃ (p : Plasma) (c : Settings), p = ⟨[1, 2], [1, 1], [1, 1], [1, 1], [1, 1], 3, 1, fun _ _ => 1⟩ ∧
      c = ⟨1, 2, 3, 0, [], 4⟩ := ⟨_, _, rfl, rfl⟩
  let s : Fin 3 → Fin 3 → ℕ → ℝ := fun a b j => coulombR u (p.pair u .averaged a b) (c.r j) *
    exp (-(p.pair u .averaged a b).alpha * c.r j)
  let l : Fin 3 → Fin 3 → ℕ → ℝ := fun a b j => coulombLongK u (p.pair u .averaged a b) (c.k j)
  obtain ⟨g, it, h⟩ := (Input.returns_unique (threeInput c u.kB s s s l l l (fun a b => p.T u .averaged a b) ![1, 1] 3)
    c.tmult).1
  exact ⟨p, c, ⟨8, fun j => j + 1⟩, s, l, _, by rw [hp.1], fun _ _ => by rw [hp.1], fun a b j => rfl, fun a b j => rfl, g, it, h, rfl⟩

/-- Two species which are not correlated with each other. -/
example : ∃ S : Fin 3 → Fin 3 → ℝ, (∀ a b : Fin 2, a ≠ b → S a.castSucc b.castSucc = 0) ∧
    (∀ a : Fin 2, S a.castSucc a.castSucc ≠ 0) ∧ ∀ a : Fin 2, S a.castSucc (Fin.last 2) ≠ 0 := by
  refine ⟨!![1, 0, 1 / 2; 0, 1, 1 / 2; 1 / 2, 1 / 2, 1], ?_, ?_, ?_⟩
  · intro a b h
    fin_cases a <;> fin_cases b <;> simp_all
  · intro a
    fin_cases a <;> simp
  · intro a
    fin_cases a <;> simp [Fin.last]

/-! ### Mixtures, grids and the electrons -/

/-- C75: the Rayleigh weight of a mixture is a quadratic form in the form factors and screening charges, so that it
cannot be negative if the structure factors of the ions form a positive semidefinite matrix. -/
theorem three_rayleigh_nonneg (s : Mix m) (hx : ∀ a, 0 ≤ s.x a) (f : Fin m → ℝ) (S : Fin (m + 1) → Fin (m + 1) → ℝ)
    (hS : (Matrix.of (ions S)).PosSemidef) : 0 ≤ threeRayleigh s f S := by
  have h := hS.dotProduct_mulVec_nonneg fun a => sqrt (s.x a) * (f a + threeQ s.Z S a)
  refine h.trans (le_of_eq ?_)
  unfold threeRayleigh
  simp only [dotProduct, Matrix.mulVec, Finset.mul_sum, star_trivial]
  refine Finset.sum_congr rfl fun a _ => Finset.sum_congr rfl fun b _ => ?_
  rw [sqrt_mul (hx a)]
  show sqrt (s.x a) * (f a + threeQ s.Z S a) * (S a.castSucc b.castSucc * (sqrt (s.x b) * (f b + threeQ s.Z S b))) = _
  ring

/-- C75: distances and wavenumbers of the models belong together: the steps of the two grids obey the relation of the
discrete transform. -/
theorem settings_conjugate (c : Settings) (hr : c.rmin < c.rmax) (hp : 0 < c.pot) :
    (c.r 1 - c.r 0) * (c.k 1 - c.k 0) * 2 ^ c.pot = π := by
  have h2 : (2 : ℝ) ≤ 2 ^ c.pot := by
    calc (2 : ℝ) = 2 ^ 1 := by norm_num
      _ ≤ 2 ^ c.pot := pow_le_pow_right₀ (by norm_num) hp
  have hd : 0 < c.r 1 - c.r 0 := by
    unfold Settings.r rGrid
    push_cast
    have : 0 < (c.rmax - c.rmin) / (2 ^ c.pot - 1) := div_pos (by linarith) (by linarith)
    linarith
  unfold Settings.k
  rw [kGrid_step]
  push_cast
  field_simp

/-- C75: at the wavenumbers of the grid (but the first) the structure factors are the transforms of the pair
distribution functions of ions and electrons, with the densities of both. -/
theorem three_structure {c : Settings} (hr : c.rmin < c.rmax) (hp : 0 < c.pot) {kB : ℝ}
    {sii sei see lii lei lee : Fin (m + 1) → Fin (m + 1) → ℕ → ℝ} {T : Fin (m + 1) → Fin (m + 1) → ℝ} {n : Fin m → ℝ}
    {ne : ℝ} {i : ℕ} (hi0 : 0 < i) (hi : i < 2 ^ c.pot) {S : Fin (m + 1) → Fin (m + 1) → ℝ}
    (h : ThreeReturns c (threeInput c kB sii sei see lii lei lee T n ne) (c.k i) S) :
    ∃ g it, (threeInput c kB sii sei see lii lei lee T n ne).Returns c.tmult g it ∧
      (∀ a b : Fin m, S a.castSucc b.castSucc = (if a = b then 1 else 0) +
        sqrt (n a * n b) * fourierSine (2 ^ c.pot) c.k c.r (fun j => g a.castSucc b.castSucc j - 1) i) ∧
      (∀ a : Fin m, S a.castSucc (Fin.last m) =
        sqrt (n a * ne) * fourierSine (2 ^ c.pot) c.k c.r (fun j => g a.castSucc (Fin.last m) j - 1) i) ∧
      S (Fin.last m) (Fin.last m) = 1 +
        sqrt (ne * ne) * fourierSine (2 ^ c.pot) c.k c.r (fun j => g (Fin.last m) (Fin.last m) j - 1) i := by
  obtain ⟨g, it, hg, rfl⟩ := h
  have hstep : 0 < c.r 1 - c.r 0 := by
    unfold Settings.r rGrid
    push_cast
    have h2 : (2 : ℝ) ≤ 2 ^ c.pot := by
      calc (2 : ℝ) = 2 ^ 1 := by norm_num
        _ ≤ 2 ^ c.pot := pow_le_pow_right₀ (by norm_num) hp
    have : 0 < (c.rmax - c.rmin) / (2 ^ c.pot - 1) := div_pos (by linarith) (by linarith)
    linarith
  have hinc : Increasing (2 ^ c.pot) c.k := by
    intro i _
    unfold Settings.k kGrid
    push_cast
    have : 0 < π / (2 ^ c.pot * (c.r 1 - c.r 0)) := by positivity
    linarith
  have key : ∀ a b, hncInterp c (sIiHNC (2 ^ c.pot) c.k c.r (withNe n ne) g) (c.k i) a b =
      (if a = b then 1 else 0) + fourierSine (2 ^ c.pot) c.k c.r (fun j => g a b j - 1) i *
        sqrt (withNe n ne a * withNe n ne b) := by
    intro a b
    unfold hncInterp
    rw [interp_at_node _ _ _ hinc i hi]
    unfold sIiHNC
    rw [if_neg hi0.ne']
    rfl
  have hn : ∀ a : Fin m, withNe n ne a.castSucc = n a := fun a => by simp [withNe]
  have hl : withNe n ne (Fin.last m) = ne := by simp [withNe]
  refine ⟨g, it, hg, fun a b => ?_, fun a => ?_, ?_⟩
  · show hncInterp c (sIiHNC (2 ^ c.pot) c.k c.r (withNe n ne) g) (c.k i) _ _ = _
    rw [key, hn, hn]
    simp only [Fin.castSucc_inj]
    ring
  · show hncInterp c (sIiHNC (2 ^ c.pot) c.k c.r (withNe n ne) g) (c.k i) _ _ = _
    rw [key, hn, hl, if_neg (Fin.castSucc_ne_last a)]
    ring
  · show hncInterp c (sIiHNC (2 ^ c.pot) c.k c.r (withNe n ne) g) (c.k i) _ _ = _
    rw [key, hl, if_pos rfl]
    ring

/-- C75: the same for one potential: the structure factors on the grid are the transforms of the pair distribution functions
which the scheme returns after the temperatures of the model. -/
theorem one_structure {c : Settings} (hr : c.rmin < c.rmax) (hp : 0 < c.pot) {kB : ℝ} {Vs Vlk : Fin m → Fin m → ℕ → ℝ}
    {T : Fin m → Fin m → ℝ} {n : Fin m → ℝ} {i : ℕ} (hi0 : 0 < i) (hi : i < 2 ^ c.pot) :
    ∃ g it, (oneInput c kB Vs Vlk T n).Returns c.tmult g it ∧ 5 * c.tmult.length ≤ it ∧
      ∀ S, OneReturns c kB Vs Vlk T n (c.k i) S ↔ ∀ a b : Fin m, S a b = (if a = b then 1 else 0) +
        sqrt (n a * n b) * fourierSine (2 ^ c.pot) c.k c.r (fun j => g a b j - 1) i := by
  obtain ⟨⟨g, it, hg⟩, huniq, hcount⟩ := Input.returns_unique (oneInput c kB Vs Vlk T n) c.tmult
  have hstep : 0 < c.r 1 - c.r 0 := by
    unfold Settings.r rGrid
    push_cast
    have h2 : (2 : ℝ) ≤ 2 ^ c.pot := by
      calc (2 : ℝ) = 2 ^ 1 := by norm_num
        _ ≤ 2 ^ c.pot := pow_le_pow_right₀ (by norm_num) hp
    have : 0 < (c.rmax - c.rmin) / (2 ^ c.pot - 1) := div_pos (by linarith) (by linarith)
    linarith
  have hinc : Increasing (2 ^ c.pot) c.k := by
    intro i _
    unfold Settings.k kGrid
    push_cast
    have : 0 < π / (2 ^ c.pot * (c.r 1 - c.r 0)) := by positivity
    linarith
  have key : ∀ g a b, hncInterp c (sIiHNC (2 ^ c.pot) c.k c.r n g) (c.k i) a b =
      (if a = b then 1 else 0) + sqrt (n a * n b) * fourierSine (2 ^ c.pot) c.k c.r (fun j => g a b j - 1) i := by
    intro g a b
    unfold hncInterp
    rw [interp_at_node _ _ _ hinc i hi]
    unfold sIiHNC
    rw [if_neg hi0.ne', mul_comm (sqrt _)]
    rfl
  refine ⟨g, it, hg, (hcount g it hg).2.1, fun S => ⟨?_, fun hS => ⟨g, it, hg, ?_⟩⟩⟩
  · rintro ⟨g', it', hg', rfl⟩ a b
    obtain ⟨rfl, -⟩ := huniq _ _ _ _ hg hg'
    exact key g a b
  · funext a b
    rw [hS, key]

/-- The smallest grid on which the statement says something. -/
example : (⟨0, 1, 1, 0, [2], 1⟩ : Settings).rmin < 1 ∧ 0 < (⟨0, 1, 1, 0, [2], 1⟩ : Settings).pot ∧ 1 < 2 ^ (⟨0, 1, 1, 0, [2], 1⟩ : Settings).pot := by
  norm_num

end Verif.HncFeat
