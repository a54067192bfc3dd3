/-
Property C76: what is calculated for a plasma does not depend on how its ions are listed: one species may be
written as several ones of the same kind, with densities that add up.
-/
import Verif.Props.HncFeat
import Verif.Props.Rayleigh
import Verif.Props.Density
import Verif.Model.Saha
import Verif.Model.Ipd
import Verif.Model.Bound

set_option autoImplicit false

namespace Verif.Splitting

open Real Verif.Expt

/-- Specification: the species `i` of the new list are groups of ions of the species `g i` of the old list. -/
def Divides {m m' : ℕ} (g : Fin m' → Fin m) (n : Fin m → ℝ) (n' : Fin m' → ℝ) : Prop :=
  ∀ a, n a = ∑ i with g i = a, n' i

section

variable {m m' : ℕ} {g : Fin m' → Fin m} {n : Fin m → ℝ} {n' : Fin m' → ℝ}

theorem Divides.sum (h : Divides g n n') (f : Fin m → ℝ) : ∑ i, n' i * f (g i) = ∑ a, n a * f a := by
  rw [← Finset.sum_fiberwise Finset.univ g]
  refine Finset.sum_congr rfl fun a _ => ?_
  rw [h a, Finset.sum_mul]
  refine Finset.sum_congr rfl fun i hi => ?_
  rw [(Finset.mem_filter.1 hi).2]

theorem Divides.total (h : Divides g n n') : ∑ i, n' i = ∑ a, n a := by
  have := h.sum fun _ => 1
  simpa using this

theorem Divides.le (h : Divides g n n') (hn : ∀ i, 0 ≤ n' i) (i : Fin m') : n' i ≤ n (g i) := by
  rw [h (g i)]
  exact Finset.single_le_sum (fun j _ => hn j) (by simp)

end

/-! ### Densities -/

namespace Plasma

open Verif.Density

/-- A list of ions in which one species is written as two. -/
def halves (pre post : List Species) (s : Species) (c : ℝ) : List Species :=
  pre ++ { s with rho := c * s.rho } :: { s with rho := (1 - c) * s.rho } :: post

theorem sum_halves (pre post : List Species) (s : Species) (c : ℝ) (q : Species → ℝ) (hq : ∀ t x, q { t with rho := x } = q t) :
    ((halves pre post s c).map fun a => q a * a.nI).sum = ((pre ++ s :: post).map fun a => q a * a.nI).sum := by
  simp only [halves, List.map_append, List.map_cons, List.sum_append, List.sum_cons, hq, Species.nI]
  ring

/-- C76: the electron density, the ion density and all averages over the ions. -/
theorem densities (pre post : List Species) (s : Species) (c Te : ℝ) :
    (mkState (halves pre post s c) Te).nE = (mkState (pre ++ s :: post) Te).nE ∧
      (mkState (halves pre post s c) Te).nI.sum = (mkState (pre ++ s :: post) Te).nI.sum ∧
      ∀ q : Species → ℝ, (∀ t x, q { t with rho := x } = q t) →
        (mkState (halves pre post s c) Te).mean q = (mkState (pre ++ s :: post) Te).mean q := by
  have hN : (mkState (halves pre post s c) Te).nI.sum = (mkState (pre ++ s :: post) Te).nI.sum := by
    have := sum_halves pre post s c (fun _ => 1) fun _ _ => rfl
    simpa [mkState, State.nI, Function.comp_def] using this
  refine ⟨?_, hN, ?_⟩
  · have := sum_halves pre post s c (fun a => a.zFree) fun _ _ => rfl
    unfold State.nE mkState
    simp only [mul_comm (Species.nI _)]
    exact this
  · intro q hq
    rw [mean_eq, mean_eq, hN]
    congr 1
    exact sum_halves pre post s c q hq

end Plasma

/-! ### Ionization potential depression -/

namespace Lowering

open Verif.Ipd Verif.Resp

variable (u : Consts) {m m' : ℕ} {g : Fin m' → Fin m} {n : Fin m → ℝ} {n' : Fin m' → ℝ}

theorem kappaISq_divides (h : Divides g n n') (Z : Fin m → ℝ) (T : ℝ) : kappaISq u (Z ∘ g) n' T = kappaISq u Z n T := by
  unfold kappaISq
  congr 1
  have := h.sum fun a => Z a ^ 2 * u.e ^ 2
  simp only [mul_comm (n' _), mul_comm (n _)] at this
  exact this

theorem kappaISqEK_divides (h : Divides g n n') (Z T : Fin m → ℝ) (c : ℝ) :
    kappaISqEK u (Z ∘ g) (fun i => c * n' i) (T ∘ g) = kappaISqEK u Z (fun a => c * n a) T := by
  unfold kappaISqEK
  have := h.sum fun a => c * (Z a ^ 2 * u.e ^ 2 / (1 * u.eps0 * u.kB * T a))
  refine Eq.trans (Finset.sum_congr rfl fun i _ => ?_) (this.trans (Finset.sum_congr rfl fun a _ => ?_))
  · simp only [Function.comp]
    ring
  · ring

/-- C76: the models of Debye and Hueckel, of the ion sphere, and of Stewart and Pyatt give the same entry for
each of the groups as for the species. -/
theorem same (arb : Option (ℝ → ℝ → ℝ)) (h : Divides g n n') (Zi : ℝ) (Z T : Fin m → ℝ) (ne Te : ℝ) (C : Option ℝ) (i : Fin m') :
    debyeHueckel u arb Zi (Z ∘ g) n' (T ∘ g) ne Te i = debyeHueckel u arb Zi Z n T ne Te (g i) ∧
      ionSphere u C Zi (Z ∘ g) ne i = ionSphere u C Zi Z ne (g i) ∧
      stewartPyatt u arb Zi (Z ∘ g) n' (T ∘ g) ne Te i = stewartPyatt u arb Zi Z n T ne Te (g i) := by
  refine ⟨?_, rfl, ?_⟩
  · unfold debyeHueckel kappaD
    rw [kappaISq_divides u h]
    rfl
  · unfold stewartPyatt kappaD
    have := kappaISq_divides u h (fun a => clipZ (Z a)) (T (g i))
    simp only [Function.comp_def] at this ⊢
    rw [this, h.total]

/-- C76: the model of Preston with a given distribution of the charges. -/
theorem preston_same (arb : Option (ℝ → ℝ → ℝ)) (h : Divides g n n') (pop : List ℝ) (cr : Bool) (Zi : ℝ) (T : Fin m → ℝ)
    (ne Te : ℝ) (i : Fin m') :
    preston u arb (some pop) cr Zi n' (T ∘ g) ne Te i = preston u arb (some pop) cr Zi n T ne Te (g i) := by
  unfold preston kappaD prestonZ
  simp only []
  generalize ((List.range pop.length).map fun k : ℕ => (k : ℝ) * pop.getD k 0).sum / (pop.length : ℝ) = Zb
  have := kappaISq_divides u h (fun _ => Zb) (T (g i))
  simp only [Function.comp_def] at this ⊢
  rw [this]

/-- C76: without a distribution the model of Preston takes the electron density divided by the density of each
entry as the mean charge of the entry.  Two halves of a species get a larger depression than the
species. -/
theorem preston_differs (arb : Option (ℝ → ℝ → ℝ)) (cr : Bool) {Zi n T ne Te : ℝ} (hZ : 0 ≤ Zi) (hn : 0 < n) (hT : 0 < T)
    (hne : 0 < ne) (hTe : 0 < Te) (i : Fin 2) :
    preston u arb none cr Zi (fun _ : Fin 2 => n / 2) (fun _ => T) ne Te i <
      preston u arb none cr Zi (fun _ : Fin 1 => n) (fun _ => T) ne Te 0 := by
  have hu := u.e_pos
  have hk := u.kB_pos
  have he := u.eps0_pos
  have hE : 0 ≤ kappaESq u arb ne Te := by
    unfold kappaESq
    cases arb with
    | none => positivity
    | some f => positivity
  have hK : kappaD u arb (fun _ : Fin 1 => ne / n) (fun _ => n) ne Te T <
      kappaD u arb (fun _ : Fin 2 => ne / (n / 2)) (fun _ => n / 2) ne Te T := by
    unfold kappaD kappaISq
    refine sqrt_lt_sqrt (by positivity) ?_
    refine add_lt_add_of_lt_of_le ?_ le_rfl
    refine div_lt_div_of_pos_right ?_ (by positivity)
    rw [Fin.sum_univ_one, Fin.sum_univ_two]
    rw [show (ne / (n / 2)) ^ 2 * u.e ^ 2 * (n / 2) + (ne / (n / 2)) ^ 2 * u.e ^ 2 * (n / 2) = 4 * ((ne / n) ^ 2 * u.e ^ 2 * n) by
      field_simp; ring]
    have : 0 < (ne / n) ^ 2 * u.e ^ 2 * n := by positivity
    linarith
  have h0 : 0 ≤ kappaD u arb (fun _ : Fin 1 => ne / n) (fun _ => n) ne Te T := sqrt_nonneg _
  have hs : n / 2 + n / 2 = n := by ring
  unfold preston prestonZ
  simp only [Fin.sum_univ_one, Fin.sum_univ_two, hs]
  have hc : (0 : ℝ) ≤ if cr then 0 else 1 := by split <;> norm_num
  generalize (if cr then (0 : ℝ) else 1) = cc at hc
  generalize kappaD u arb (fun _ : Fin 1 => ne / n) (fun _ => n) ne Te T = K1 at *
  generalize kappaD u arb (fun _ : Fin 2 => ne / (n / 2)) (fun _ => n / 2) ne Te T = K2 at *
  have hz : 0 < ne / n + cc := by positivity
  have hL : ∀ K : ℝ, 3 * (ne / n + cc) * (Zi + 1) * u.e ^ 2 / (4 * u.eps0 * π * (1 / K) * u.kB * T) =
      3 * (ne / n + cc) * (Zi + 1) * u.e ^ 2 / (4 * u.eps0 * π * u.kB * T) * K := by
    intro K
    rw [one_div, show 4 * u.eps0 * π * K⁻¹ * u.kB * T = 4 * u.eps0 * π * u.kB * T * K⁻¹ by ring, div_mul_eq_div_div, div_inv_eq_mul]
  rw [hL, hL]
  have hA : 0 < 3 * (ne / n + cc) * (Zi + 1) * u.e ^ 2 / (4 * u.eps0 * π * u.kB * T) := by positivity
  generalize 3 * (ne / n + cc) * (Zi + 1) * u.e ^ 2 / (4 * u.eps0 * π * u.kB * T) = A at *
  have hp : (1 + A * K1) ^ (2 / 3 : ℝ) < (1 + A * K2) ^ (2 / 3 : ℝ) :=
    rpow_lt_rpow (by positivity) (by nlinarith) (by norm_num)
  have hB : -(1 * u.kB * T) / (2 * (ne / n + cc)) < 0 := div_neg_of_neg_of_pos (by simp; positivity) (by positivity)
  exact mul_lt_mul_of_neg_left (by linarith) hB

/-- C76: below the critical density the model of Ecker and Kroell gives the same entry … -/
theorem eckerKroell_same (arb : Option (ℝ → ℝ → ℝ)) (C : Option ℝ) (h : Divides g n n') (hn : ∀ i, 0 ≤ n' i) (Zi : ℝ) (Z T Zm : Fin m → ℝ)
    (ne Te : ℝ) (i : Fin m') (hc : n (g i) + ne ≤ criticalDensity u Te (Zm (g i))) :
    eckerKroell u arb C Zi (Z ∘ g) n' (T ∘ g) (Zm ∘ g) ne Te i = eckerKroell u arb C Zi Z n T Zm ne Te (g i) := by
  have h1 := kappaISqEK_divides u h Z T 1
  simp only [one_mul] at h1
  have hc' : n' i + ne ≤ criticalDensity u Te ((Zm ∘ g) i) := (add_le_add_left (h.le hn i) ne).trans hc
  unfold eckerKroell
  simp only []
  rw [if_pos hc, if_pos hc', h1]

/-- … but above it depends on the density of the entry only: a part of a species gets a smaller depression. -/
theorem eckerKroell_differs (arb : Option (ℝ → ℝ → ℝ)) {C : ℝ} (hC : 0 < C) (hn : ∀ i, 0 ≤ n' i) {Zi : ℝ}
    (hZ : 0 ≤ Zi) (Z T Zm : Fin m → ℝ) {ne : ℝ} (hne : 0 < ne) (Te : ℝ) (i : Fin m') (hi : n' i < n (g i))
    (hc : criticalDensity u Te (Zm (g i)) < n' i + ne) :
    eckerKroell u arb (some C) Zi Z n T Zm ne Te (g i) < eckerKroell u arb (some C) Zi (Z ∘ g) n' (T ∘ g) (Zm ∘ g) ne Te i := by
  have hu := u.e_pos
  have he := u.eps0_pos
  have hc' : criticalDensity u Te (Zm (g i)) < n (g i) + ne := by linarith
  have h1 : ¬ n' i + ne ≤ criticalDensity u Te ((Zm ∘ g) i) := not_le.2 hc
  unfold eckerKroell
  simp only [Option.getD_some]
  rw [if_neg (not_le.2 hc'), if_neg h1]
  have hp : 0 < ne + n' i := by linarith [hn i]
  have hp' : 0 < ne + n (g i) := by linarith [hn i]
  have hR : (3 / (4 * π * (ne + n (g i)))) ^ (1 / 3 : ℝ) < (3 / (4 * π * (ne + n' i))) ^ (1 / 3 : ℝ) := by
    refine rpow_lt_rpow (by positivity) ?_ (by norm_num)
    exact div_lt_div_of_pos_left (by norm_num) (by positivity) (mul_lt_mul_of_pos_left (by linarith) (by positivity))
  have hR0 : 0 < (3 / (4 * π * (ne + n (g i)))) ^ (1 / 3 : ℝ) := by positivity
  generalize (3 / (4 * π * (ne + n (g i)))) ^ (1 / 3 : ℝ) = R at *
  generalize (3 / (4 * π * (ne + n' i))) ^ (1 / 3 : ℝ) = R' at *
  refine mul_lt_mul_of_pos_right ?_ (by linarith)
  rw [neg_mul, neg_div, neg_div, neg_lt_neg_iff]
  refine div_lt_div_of_pos_left (by positivity) (by positivity) ?_
  exact mul_lt_mul_of_pos_left hR (by positivity)

end Lowering

/-! ### Ionization -/

namespace Ionization

open Verif.Saha

/-- A list of elements in which one is written as two. -/
def halves (pre post : List Species) (s : Species) (c : ℝ) : List Species :=
  pre ++ { s with N := c * s.N } :: { s with N := (1 - c) * s.N } :: post

theorem zbar_N (s : Species) (x logNe : ℝ) : zbar { s with N := x } logNe = zbar s logNe := rfl

/-- C76: the electron density found by the solvers of the Saha equations. -/
theorem saha (pre post : List Species) (s : Species) (c logNe : ℝ) :
    Solves (halves pre post s c) logNe ↔ Solves (pre ++ s :: post) logNe := by
  have h1 : Saha.residual (halves pre post s c) = Saha.residual (pre ++ s :: post) := by
    funext x
    unfold Saha.residual halves
    simp only [List.map_append, List.map_cons, List.sum_append, List.sum_cons, zbar_N]
    ring
  have h2 : maxNe (halves pre post s c) = maxNe (pre ++ s :: post) := by
    unfold maxNe halves
    simp only [List.map_append, List.map_cons, List.sum_append, List.sum_cons]
    ring
  unfold Solves
  rw [h1, h2]

/-- C76: the densities of the charge states of the two parts add up. -/
theorem saha_densities (s : Species) (c logNe : ℝ) :
    List.zipWith (· + ·) (densities { s with N := c * s.N } logNe) (densities { s with N := (1 - c) * s.N } logNe) =
      densities s logNe := by
  have hw : ∀ x i, weight { s with N := x } logNe i = weight s logNe i := fun _ _ => rfl
  unfold densities
  simp only [hw, List.zipWith_map, List.zipWith_self]
  refine List.map_congr_left fun i _ => ?_
  ring

variable {m m' : ℕ} {g : Fin m' → Fin m} {n : Fin m → ℝ} {n' : Fin m' → ℝ}

/-- C76: the mean charges in the model of More. -/
theorem more (h : Divides g n n') (hg : Function.Surjective g) (amu : ℝ) (mass Z : Fin m → ℝ) (T : ℝ) (z : Fin m' → ℝ) :
    MoreReturns amu n' (mass ∘ g) (Z ∘ g) T z ↔ ∃ z', MoreReturns amu n mass Z T z' ∧ z = z' ∘ g := by
  have hbody : ∀ zb : Fin m → ℝ, moreBody amu n' (mass ∘ g) (Z ∘ g) T (zb ∘ g) = moreBody amu n mass Z T zb ∘ g := by
    intro zb
    funext i
    unfold moreBody
    simp only [Function.comp]
    rw [h.sum zb]
  have hcond : ∀ (a b : Fin m → ℝ) (k : ℕ), moreCond (a ∘ g, b ∘ g, k) = moreCond (a, b, k) := by
    intro a b k
    unfold moreCond
    simp only [Function.comp]
    have e : (∃ i, |b (g i) - a (g i)| > 1 / 100000) ↔ ∃ i, |b i - a i| > 1 / 100000 :=
      ⟨fun ⟨i, hi⟩ => ⟨g i, hi⟩, fun ⟨i, hi⟩ => by obtain ⟨j, rfl⟩ := hg i; exact ⟨j, hi⟩⟩
    simp only [e]
  have hloop : ∀ s : (Fin m → ℝ) × (Fin m → ℝ) × ℕ, moreLoop amu n' (mass ∘ g) (Z ∘ g) T (s.1 ∘ g, s.2.1 ∘ g, s.2.2) =
      ((moreLoop amu n mass Z T s).1 ∘ g, (moreLoop amu n mass Z T s).2.1 ∘ g, (moreLoop amu n mass Z T s).2.2) := by
    intro s
    unfold moreLoop
    simp only [hbody]
  have fwd : ∀ s t, MoreWhile amu n mass Z T s t →
      MoreWhile amu n' (mass ∘ g) (Z ∘ g) T (s.1 ∘ g, s.2.1 ∘ g, s.2.2) (t.1 ∘ g, t.2.1 ∘ g, t.2.2) := by
    intro s t hw
    induction hw with
    | stop hc => exact .stop (by rw [hcond]; exact hc)
    | step hc _ ih => exact .step (by rw [hcond]; exact hc) (by rw [hloop]; exact ih)
  have bwd : ∀ s' t', MoreWhile amu n' (mass ∘ g) (Z ∘ g) T s' t' → ∀ s, s' = (s.1 ∘ g, s.2.1 ∘ g, s.2.2) →
      ∃ t, MoreWhile amu n mass Z T s t ∧ t' = (t.1 ∘ g, t.2.1 ∘ g, t.2.2) := by
    intro s' t' hw
    induction hw with
    | stop hc =>
      rintro s rfl
      exact ⟨s, .stop (by rw [hcond] at hc; exact hc), rfl⟩
    | step hc _ ih =>
      rintro s rfl
      obtain ⟨t, ht, rfl⟩ := ih _ (hloop s)
      exact ⟨t, .step (by rw [hcond] at hc; exact hc) ht, rfl⟩
  have h0 : ((fun i => 1 / 2 * (Z ∘ g) i, moreBody amu n' (mass ∘ g) (Z ∘ g) T (fun i => 1 / 2 * (Z ∘ g) i), 0) :
      (Fin m' → ℝ) × (Fin m' → ℝ) × ℕ) =
      ((fun i => 1 / 2 * Z i) ∘ g, moreBody amu n mass Z T (fun i => 1 / 2 * Z i) ∘ g, 0) := by
    rw [← hbody]
    rfl
  constructor
  · rintro ⟨s', hs', rfl⟩
    obtain ⟨t, ht, rfl⟩ := bwd _ _ hs' (fun i => 1 / 2 * Z i, moreBody amu n mass Z T (fun i => 1 / 2 * Z i), 0) h0
    exact ⟨t.2.1, ⟨t, ht, rfl⟩, rfl⟩
  · rintro ⟨z', ⟨s, hs, rfl⟩, rfl⟩
    refine ⟨(s.1 ∘ g, s.2.1 ∘ g, s.2.2), ?_, rfl⟩
    rw [h0]
    exact fwd _ _ hs

end Ionization

/-! ### Bound electrons -/

/-- C76: the scattering from bound electrons. -/
theorem bound (pre post : List (ℝ × ℝ × ℝ × (ℝ → ℝ))) (x ZA charge c meanZA : ℝ) (state : ℝ → ℝ) :
    Bound.bfTotal (pre ++ (c * x, ZA, charge, state) :: ((1 - c) * x, ZA, charge, state) :: post) meanZA =
      Bound.bfTotal (pre ++ (x, ZA, charge, state) :: post) meanZA := by
  unfold Bound.bfTotal
  simp only [List.map_append, List.map_cons, List.sum_append, List.sum_cons]
  congr 1
  ring

/-! ### Ions in the hypernetted chain scheme -/

section

open Verif.Ssf Verif.Hnc Verif.HncFeat Verif.Interp

variable {m m' : ℕ} {g : Fin m' → Fin m} {n : Fin m → ℝ} {n' : Fin m' → ℝ}

theorem interp_affine (N : ℕ) (xp f f' : ℕ → ℝ) (hN : 0 < N) (a c : ℝ) (h : ∀ i < N, f' i = a + c * f i) (x : ℝ) :
    interp N xp f' x = a + c * interp N xp f x := by
  unfold interp interpLR
  split_ifs
  · exact h _ (by omega)
  · exact h _ hN
  · unfold Interp.segment
    have h1 := h (min (max (searchsorted N xp x) 1) (N - 1)) (by omega)
    have h2 := h (min (max (searchsorted N xp x) 1) (N - 1) - 1) (by omega)
    split_ifs
    · exact h2
    · rw [h1, h2]
      ring

/-- Specification: the structure factors which belong to the correlation functions `H`, in k space. -/
noncomputable def structFrom {m : ℕ} (n : Fin m → ℝ) (H : Fin m → Fin m → ℝ) (a b : Fin m) : ℝ :=
  (if a = b then 1 else 0) + sqrt (n a * n b) * H a b

/-- The structure factors of the models belong to the transform of `g - 1`, which is interpolated. -/
theorem hncInterp_eq (c : Settings) (n : Fin m → ℝ) (G : Fin m → Fin m → ℕ → ℝ) (k : ℝ) :
    hncInterp c (sIiHNC (2 ^ c.pot) c.k c.r n G) k =
      structFrom n fun a b => interp (2 ^ c.pot) c.k
        (fun i => fourierSine (2 ^ c.pot) c.k c.r (fun j => G a b j - 1) (if i = 0 then 1 else i)) k := by
  funext a b
  unfold hncInterp structFrom
  refine interp_affine _ _ _ _ (by positivity) _ _ (fun i _ => ?_) k
  unfold sIiHNC
  split <;> (unfold sK; ring)

/-- The Rayleigh weight for such structure factors. -/
theorem rayleigh_structFrom {s : Mix m} (hn : ∀ a, 0 ≤ s.n a) (f q : Fin m → ℝ) (H : Fin m → Fin m → ℝ) :
    s.rayleigh f q (structFrom s.n H) = (∑ a, s.n a * (f a + q a) ^ 2 +
      ∑ a, s.n a * ∑ b, s.n b * ((f a + q a) * (f b + q b) * H a b)) / s.ntot := by
  have hN : 0 ≤ s.ntot := Finset.sum_nonneg fun a _ => hn a
  have e : ∀ a b, sqrt (s.x a * s.x b) * (f a + q a) * (f b + q b) * structFrom s.n H a b =
      (if a = b then s.n a * (f a + q a) ^ 2 / s.ntot else 0) + s.n a * (s.n b * ((f a + q a) * (f b + q b) * H a b)) / s.ntot := by
    intro a b
    have h1 : sqrt (s.x a * s.x b) = sqrt (s.n a * s.n b) / s.ntot := by
      show sqrt (s.n a / s.ntot * (s.n b / s.ntot)) = _
      rw [div_mul_div_comm, ← sq, sqrt_div (mul_nonneg (hn a) (hn b)), sqrt_sq hN]
    have h2 : sqrt (s.n a * s.n b) * sqrt (s.n a * s.n b) = s.n a * s.n b := mul_self_sqrt (mul_nonneg (hn a) (hn b))
    rw [h1]
    unfold structFrom
    by_cases hab : a = b
    · subst hab
      have h3 : sqrt (s.n a * s.n a) = s.n a := sqrt_mul_self (hn a)
      rw [if_pos rfl, if_pos rfl, h3]
      ring
    · rw [if_neg hab, if_neg hab]
      linear_combination ((f a + q a) * (f b + q b) * H a b / s.ntot) * h2
  unfold Mix.rayleigh
  simp only [e, Finset.sum_add_distrib, Finset.sum_ite_eq, Finset.mem_univ, if_true]
  rw [add_div, Finset.sum_div, Finset.sum_div]
  congr 1
  refine Finset.sum_congr rfl fun a _ => ?_
  rw [Finset.mul_sum, Finset.sum_div]

/-- C76: the Rayleigh weight of the hypernetted chain models, for pair correlation functions which do not depend
on the group (`Hnc.Input.step_split`). -/
theorem one_rayleigh {s : Mix m} {s' : Mix m'} (h : Mix.Refines s' s g) (hn : ∀ i, 0 ≤ s'.n i) (f q : Fin m → ℝ) (c : Settings)
    (G : Fin m → Fin m → ℕ → ℝ) (k : ℝ) :
    s'.rayleigh (f ∘ g) (q ∘ g) (hncInterp c (sIiHNC (2 ^ c.pot) c.k c.r s'.n fun a b => G (g a) (g b)) k) =
      s.rayleigh f q (hncInterp c (sIiHNC (2 ^ c.pot) c.k c.r s.n G) k) := by
  have hn' : ∀ a, 0 ≤ s.n a := fun a => by
    rw [h.n a]
    exact Finset.sum_nonneg fun i _ => hn i
  rw [hncInterp_eq, hncInterp_eq, rayleigh_structFrom hn, rayleigh_structFrom hn', h.ntot]
  congr 2
  · exact h.sum fun a => (f a + q a) ^ 2
  · rw [← h.sum]
    refine Finset.sum_congr rfl fun i _ => ?_
    rw [← h.sum]
    rfl

/-- The groups, with the electrons as the last species. -/
def withElectrons (g : Fin m' → Fin m) : Fin (m' + 1) → Fin (m + 1) := Fin.snoc (fun i => (g i).castSucc) (Fin.last m)

/-- C76: the model with three potentials takes the screening from the diagonal of the structure factors, which
depends on the list of the ions.  For two halves of one species without bound electrons the Rayleigh weight is
right for one value of the structure factor only. -/
theorem three_differs {n Z mass Ti Te ne : ℝ} (hn : 0 < n) (hZ : 0 < Z) (H : Fin 2 → Fin 2 → ℝ) :
    let s : Mix 1 := ⟨fun _ => n, fun _ => Z, fun _ => mass, fun _ => Ti, Te, ne⟩
    let s' : Mix 2 := ⟨fun _ => n / 2, fun _ => Z, fun _ => mass, fun _ => Ti, Te, ne⟩
    let S := structFrom (withNe s.n ne) H
    let S' := structFrom (withNe s'.n ne) fun a b => H (withElectrons (fun _ => 0) a) (withElectrons (fun _ => 0) b)
    0 < S 0 0 → S 0 1 ≠ 0 →
      (threeRayleigh s' (fun _ => 0) S' = threeRayleigh s (fun _ => 0) S ↔ sqrt 2 * S 0 0 = 1 + S 0 0) := by
  intro s s' S S' hS he
  have h1 : threeRayleigh s (fun _ => 0) S = (0 + sqrt Z * S 0 1 / S 0 0) ^ 2 * S 0 0 :=
    three_rayleigh_single s hn.ne' _ S
  have hw : (withElectrons (fun _ : Fin 2 => (0 : Fin 1))) = ![0, 0, 1] := by
    funext i
    fin_cases i <;> rfl
  have hs0 : S 0 0 = 1 + n * H 0 0 := by
    show (if (0 : Fin 2) = 0 then (1 : ℝ) else 0) + sqrt (n * n) * H 0 0 = _
    rw [if_pos rfl, sqrt_mul_self hn.le]
  have hs1 : S 0 1 = sqrt (n * ne) * H 0 1 := by
    show (if (0 : Fin 2) = 1 then (1 : ℝ) else 0) + sqrt (n * ne) * H 0 1 = _
    rw [if_neg (by decide), zero_add]
  have e : ∀ a b : Fin 2, S' a.castSucc b.castSucc = (if a = b then 1 else 0) + (S 0 0 - 1) / 2 := by
    intro a b
    rw [hs0]
    have : sqrt (n / 2 * (n / 2)) = n / 2 := sqrt_mul_self (by positivity)
    fin_cases a <;> fin_cases b <;> simp [S', structFrom, withNe, hw, s', Fin.snoc, this] <;> ring
  have e' : ∀ a : Fin 2, S' a.castSucc (Fin.last 2) = S 0 1 / sqrt 2 := by
    intro a
    rw [hs1]
    have : sqrt (n / 2 * ne) = sqrt (n * ne) / sqrt 2 := by
      rw [show n / 2 * ne = n * ne / 2 by ring, sqrt_div' _ (by norm_num)]
    fin_cases a <;> simp [S', structFrom, withNe, hw, s', Fin.snoc, Fin.last, this] <;> ring
  have hx : ∀ a, s'.x a = 1 / 2 := by
    intro a
    show n / 2 / ∑ _ : Fin 2, n / 2 = 1 / 2
    rw [Fin.sum_univ_two]
    field_simp
    norm_num
  have hq : ∀ a, threeQ s'.Z S' a = sqrt Z * (S 0 1 / sqrt 2) / (1 + (S 0 0 - 1) / 2) := by
    intro a
    unfold threeQ qGlenzer2009
    rw [e', e, if_pos rfl]
  have hh : sqrt ((1 / 2 : ℝ) * (1 / 2)) = 1 / 2 := sqrt_mul_self (by norm_num)
  have h2 : threeRayleigh s' (fun _ => 0) S' = (sqrt Z * (S 0 1 / sqrt 2) / (1 + (S 0 0 - 1) / 2)) ^ 2 * S 0 0 := by
    unfold threeRayleigh
    simp only [hx, hq, hh, e, Fin.sum_univ_two, Fin.isValue]
    rw [if_pos trivial, if_neg (by decide), if_neg (by decide)]
    ring
  rw [h1, h2]
  have hz : sqrt Z ≠ 0 := (sqrt_pos.2 hZ).ne'
  have h2' : sqrt 2 * sqrt 2 = 2 := mul_self_sqrt (by norm_num)
  have hp2 : 0 < sqrt 2 := sqrt_pos.2 (by norm_num)
  generalize sqrt 2 = w at *
  generalize sqrt Z = z at *
  generalize S 0 0 = x at *
  generalize S 0 1 = y at *
  have hd : 1 + (x - 1) / 2 ≠ 0 := by
    intro h0
    linarith
  have l : (z * (y / w) / (1 + (x - 1) / 2)) ^ 2 * x = z ^ 2 * y ^ 2 * x * 2 / (1 + x) ^ 2 := by
    have : 1 + x ≠ 0 := by linarith
    rw [show 1 + (x - 1) / 2 = (1 + x) / 2 by ring]
    field_simp
    linear_combination -h2'
  have r : (0 + z * y / x) ^ 2 * x = z ^ 2 * y ^ 2 / x := by
    field_simp
    ring
  rw [l, r]
  have h3 : z ^ 2 * y ^ 2 ≠ 0 := by positivity
  have h1x : 0 < 1 + x := by linarith
  constructor
  · intro h
    rw [div_eq_div_iff (by positivity) (by positivity)] at h
    have h4 : x * x * 2 = (1 + x) ^ 2 := mul_left_cancel₀ h3 (by linear_combination h)
    have h5 : (w * x) ^ 2 = (1 + x) ^ 2 := by rw [← h4, mul_pow]; linear_combination x ^ 2 * h2'
    exact (sq_eq_sq₀ (by positivity) h1x.le).1 h5
  · intro h
    rw [div_eq_div_iff (by positivity) (by positivity)]
    have h4 : x * x * 2 = (1 + x) ^ 2 := by rw [← h, mul_pow]; linear_combination (-x ^ 2) * h2'
    linear_combination (z ^ 2 * y ^ 2) * h4

end

/-! ### Examples -/

/-- Two halves of one species, and a second species. -/
example : Divides ![0, 0, 1] ![3, 1] ![1, 2, 1] := by
  intro a
  fin_cases a <;> simp [Finset.sum_filter, Fin.sum_univ_three]; norm_num

end Verif.Splitting
