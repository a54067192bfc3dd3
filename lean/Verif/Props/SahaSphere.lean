/-
C88: the iteration for the mean charge of one element with the lowering of the ion-sphere model.
-/
import Verif.Props.SahaConverge

set_option autoImplicit false

open Real Finset Verif.Expt Verif.Resp

namespace Verif.Saha

variable (u : Consts)

/-- Specification: the lowering in a sphere which holds one ion, `C` times the energy of the ion's charge after the
ionization at the radius of the sphere (the code counts neutral atoms with the charge `1e-6`). -/
noncomputable def sphereLowering (C : Option ℝ) (N : ℝ) (k : ℕ) : ℝ :=
  -(C.getD (3 / 2) * (max (k : ℝ) (1 / 1000000) + 1) * u.e ^ 2 / (4 * π * u.eps0 * (3 / (4 * π * N)) ^ (1 / 3 : ℝ)))

/-- C88: with one element whose charge is at least `1e-6` the ion-sphere model returns the same lowering at every
charge. -/
theorem ionSphere_one {C : Option ℝ} {N z : ℝ} (hN : 0 < N) (hz : 1 / 1000000 ≤ z) (k : ℕ) :
    Ipd.ionSphere u C (k : ℝ) (fun _ : Fin 1 => z) (z * N) 0 = sphereLowering u C N k := by
  have hz0 : 0 < z := lt_of_lt_of_le (by norm_num) hz
  have e : 3 * z / (4 * π * (z * N)) = 3 / (4 * π * N) := by
    have := pi_pos
    field_simp
  simp only [Ipd.ionSphere, Ipd.clipZ, sphereLowering, max_eq_left hz, e]
  rw [neg_div]
  congr 2 <;> ring

/-- What `all_element_states` of the ion-sphere model returns for a state with one element of charge `z`. -/
theorem ionSphere_all (mu : ℝ → ℝ → ℝ) (s : Ipd.IpdState 1) (pop : Option (List ℝ)) (C : Option ℝ) {z N : ℝ} (hN : 0 < N)
    (hz1 : 1 / 1000000 ≤ z) (hz : s.Zfree = fun _ => z) (hne : s.ne = z * N) :
    Ipd.IpdModel.all u mu s pop (.ionSphere C) = some fun j => (List.range (s.Z j)).map (sphereLowering u C N) := by
  simp only [Ipd.IpdModel.all, Ipd.stages, hz, hne, Option.isSome_some, implies_true, if_true, Option.getD_some]
  congr 1
  funext j
  refine List.map_congr_left fun k _ => ?_
  rw [Subsingleton.elim j 0]
  exact ionSphere_one u hN hz1 k

variable {u}

/-- C88: with one element, the ion-sphere model and no chemical potential the first iteration already gives the final
state, which is self-consistent, if its charge is at least `1e-6`; it solves the equations for the lowering of a sphere
which holds one ion. -/
theorem sahaReturns_ionSphere {p : Plasma} {o : Options} {e : Elem} {C : Option ℝ} (hp : p.elems = [e])
    (hi : o.useIpd = true) (hc : o.useChemPot = false) (hN : 0 < e.N) (hZ : 0 < e.Z)
    (hcl : ∀ z d, p.ipd [z] d = [fun k : ℕ => Ipd.ionSphere u C (k : ℝ) (fun _ : Fin 1 => z) (z * e.N) 0])
    (hfree : ∀ y, Solves [sahaSpecies u e.Z e.g e.E (sphereLowering u C e.N) p.T e.N o.exclude] y →
      1 / 1000000 ≤ zbar (sahaSpecies u e.Z e.g e.E (sphereLowering u C e.N) p.T e.N o.exclude) y)
    {zfree : List ℝ} {out : Loop} (h : p.SahaReturns u o zfree out) :
    SelfConsistent u p o out ∧
      Solved [sahaSpecies u e.Z e.g e.E (sphereLowering u C e.N) p.T e.N o.exclude] out.dist out.zmean := by
  have hlist : ∀ {s : Loop} {z : ℝ}, s.zfree = [z] → 1 / 1000000 ≤ z →
      p.stepList u o s = [sahaSpecies u e.Z e.g e.E (sphereLowering u C e.N) p.T e.N o.exclude] := by
    intro s z hz h1
    have : (fun k : ℕ => Ipd.ionSphere u C (k : ℝ) (fun _ : Fin 1 => z) (z * e.N) 0) = sphereLowering u C e.N :=
      funext fun k => ionSphere_one u hN h1 k
    simp [Plasma.stepList, Plasma.lowering, Plasma.sahaList, hi, hc, hz, hcl, hp, this]
  have hstep : ∀ {s s' : Loop} {z : ℝ}, s.zfree = [z] → 1 / 1000000 ≤ z → p.sahaStep u o s s' →
      Solved [sahaSpecies u e.Z e.g e.E (sphereLowering u C e.N) p.T e.N o.exclude] s'.dist s'.zmean ∧
        s'.zfree = s'.zmean ∧ ∃ z', s'.zfree = [z'] ∧ 1 / 1000000 ≤ z' := by
    rintro s s' z hz h1 ⟨hS, hf⟩
    rw [hlist hz h1] at hS
    refine ⟨hS, hf, ?_⟩
    obtain ⟨y, hy, -, hm⟩ := hS
    exact ⟨_, hf.trans hm, hfree y hy⟩
  have hiter : ∀ (n : ℕ) {s s' : Loop} {z : ℝ}, s.zfree = [z] → 1 / 1000000 ≤ z → Iter (p.sahaStep u o) (n + 1) s s' →
      Solved [sahaSpecies u e.Z e.g e.E (sphereLowering u C e.N) p.T e.N o.exclude] s'.dist s'.zmean ∧
        s'.zfree = s'.zmean ∧ ∃ z', s'.zfree = [z'] ∧ 1 / 1000000 ≤ z' := by
    intro n
    induction n with
    | zero =>
      intro s s' z hz h1 hit
      cases hit with
      | succ hst hit =>
        cases hit
        exact hstep hz h1 hst
    | succ n ih =>
      intro s s' z hz h1 hit
      cases hit with
      | succ hst hit =>
        obtain ⟨-, -, z', m1, m2⟩ := hstep hz h1 hst
        exact ih m1 m2 hit
  obtain ⟨s, hs0, -, hit⟩ := h
  have hr : p.reset zfree = [(e.Z : ℝ)] := by simp [Plasma.reset, hp]
  have hZ1 : (1 : ℝ) ≤ e.Z := by exact_mod_cast hZ
  obtain ⟨k1, k2, z', k3, k4⟩ := hiter 5 (hs0.trans hr) (by linarith) hit
  refine ⟨⟨?_, k2⟩, k1⟩
  rw [hlist k3 k4]
  exact k1

/-- Hydrogen has at least half a free electron here. -/
theorem hydrogen_sphere_free (y : ℝ) (hy : Solves [sahaSpecies unitConsts 1 (fun _ => 1) (fun _ => 2 * π)
      (sphereLowering unitConsts none 2) (2 * π * 2 ^ 2) 2 false] y) :
    1 / 2 ≤ zbar (sahaSpecies unitConsts 1 (fun _ => 1) (fun _ => 2 * π) (sphereLowering unitConsts none 2)
      (2 * π * 2 ^ 2) 2 false) y := by
  have hpi := pi_pos
  obtain ⟨s, hs⟩ : ∃ s, s = sahaSpecies unitConsts 1 (fun _ => 1) (fun _ => 2 * π) (sphereLowering unitConsts none 2)
      (2 * π * 2 ^ 2) 2 false := ⟨_, rfl⟩
  rw [← hs] at hy ⊢
  have hZ : s.Z = 1 := by rw [hs]; rfl
  have hN : s.N = 2 := by rw [hs]; rfl
  have hmask : ∀ k, s.mask k = 1 := fun k => by rw [hs]; simp [sahaSpecies]
  have hneg : sphereLowering unitConsts none 2 0 ≤ 0 := by
    unfold sphereLowering
    have := unitConsts.eps0_pos
    have := unitConsts.e_pos
    simp only [Left.neg_nonpos_iff, Option.getD_none]
    positivity
  have hc : 2 ≤ s.coeff 0 := by
    have h1 : s.coeff 0 = sahaEquation unitConsts 1 1 (2 * π * 2 ^ 2) (2 * π + sphereLowering unitConsts none 2 0) := by
      rw [hs]; rfl
    have e : 2 * π + sphereLowering unitConsts none 2 0 =
        2 * π * (1 + sphereLowering unitConsts none 2 0 / (2 * π)) := by field_simp
    rw [h1, e, unit_saha 2 _ two_pos]
    have h3 : sphereLowering unitConsts none 2 0 / (2 * π) ≤ 0 := div_nonpos_of_nonpos_of_nonneg hneg (by positivity)
    generalize sphereLowering unitConsts none 2 0 / (2 * π) = w at *
    have h4 := add_one_le_exp (-(1 + w) / 2 ^ 2)
    linarith
  have hmax : maxNe [s] = 2 := by simp [maxNe, hZ, hN]
  have hy2 : y ≤ log 2 := by
    obtain ⟨n, hn⟩ := hy
    obtain ⟨x, m, hx, huniq, -, -, hmem⟩ := Bisection.bisection_returns (residual [s])
      ⟨1 / 100000000, 1000, 1⟩ (log (1 / 100000000)) (log (maxNe [s]))
    obtain ⟨rfl, rfl⟩ := huniq y n hn
    rw [hmax, Set.uIcc_of_le (log_le_log (by norm_num) (by norm_num))] at hmem
    exact hmem.2
  have hx : 0 ≤ log (s.coeff 0) - y := by
    have := log_le_log two_pos hc
    linarith
  have hb : AllBound s := fun k _ => by rw [hmask]; norm_num
  have l0 : logP s y 0 = some 0 := by
    rw [logP_allBound hb y (Nat.zero_le _)]
    simp
  have l1 : logP s y 1 = some (log (s.coeff 0) - y) := by
    rw [logP_allBound hb y (by rw [hZ])]
    simp
  have hw : weight s y 0 ≤ weight s y 1 := by
    unfold weight
    refine div_le_div_of_nonneg_right (exp_le_exp.2 ?_) (weightSum_pos s y).le
    rw [l0, l1]
    simp only [clip500]
    rw [max_eq_left (by norm_num), min_eq_left (by norm_num)]
    refine le_min (le_max_of_le_left hx) (by norm_num)
  have h1 := weight_sum s y
  have e : zbar s y = weight s y 1 := by
    unfold zbar
    rw [hZ, sum_range_succ, sum_range_one]
    simp
  rw [hZ, sum_range_succ, sum_range_one] at h1
  rw [e]
  linarith

/-- A plasma of hydrogen meets the hypotheses. -/
example : ∃ (p : Plasma) (o : Options) (e : Elem) (out : Loop), p.elems = [e] ∧ o.useIpd = true ∧ o.useChemPot = false ∧
    0 < e.N ∧ 0 < e.Z ∧
    (∀ z d, p.ipd [z] d = [fun k : ℕ => Ipd.ionSphere unitConsts none (k : ℝ) (fun _ : Fin 1 => z) (z * e.N) 0]) ∧
    (∀ y, Solves [sahaSpecies unitConsts e.Z e.g e.E (sphereLowering unitConsts none e.N) p.T e.N o.exclude] y →
      1 / 1000000 ≤ zbar (sahaSpecies unitConsts e.Z e.g e.E (sphereLowering unitConsts none e.N) p.T e.N o.exclude) y) ∧
    p.SahaReturns unitConsts o [] out := by
  obtain ⟨p, hp⟩ : ∃ p : Plasma, p = ⟨[hydrogen (2 * π)], 2 * π * 2 ^ 2, fun z _ => z.map fun x (k : ℕ) =>
    Ipd.ionSphere unitConsts none (k : ℝ) (fun _ : Fin 1 => x) (x * (hydrogen (2 * π)).N) 0, fun _ => 0⟩ := ⟨_, rfl⟩
  obtain ⟨out, h, -⟩ := sahaReturns_unique unitConsts p ⟨true, false, true, false⟩ []
  refine ⟨p, ⟨true, false, true, false⟩, hydrogen (2 * π), out, by rw [hp], rfl, rfl, two_pos, one_pos, ?_, ?_, h⟩
  · intro z d
    rw [hp]
    rfl
  · intro y hy
    rw [hp] at hy ⊢
    exact le_trans (by norm_num) (hydrogen_sphere_free y hy)

end Verif.Saha
