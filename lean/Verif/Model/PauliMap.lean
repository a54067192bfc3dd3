/-
The exchange potential of the electrons from the classical map: hnc_potentials.py 36-252 and the class
`PauliClassicalMap` (1530-1638).  Numbers are exact, units are not modelled; the function
`fourier_transform_sine` is the one of Model/Hnc, `jnp.interp` the one of Model/Interp.
-/
import Verif.Model.Hnc
import Verif.Model.Fermi
import Verif.Model.Interp

set_option autoImplicit false

namespace Verif.Pauli

open Real Verif.Expt Verif.Resp

/-- hnc_potentials.py 52-70 and 150-170: `F_T_r`, on the first grid of distances.  The wave numbers of lines
54-56 and 152-154 are `Hnc.kGrid`.  Lines 146-170 calculate a matrix, of which only the entries on the
diagonal are used (193). -/
noncomputable def exchange (u : Consts) (N : ℕ) (r : ℕ → ℝ) (n T : ℝ) (j : ℕ) : ℝ :=
  let k := Hnc.kGrid N r
  let nk := fun i => fermiDirac u (k i) (chemPotSommerfeld u T n) T
  6 * π ^ 2 / fermiWavenumber n ^ 3 * Hnc.fourierSine N r k nk j / (2 * π) ^ 3

/-- hnc_potentials.py 80 and 189. -/
noncomputable def clip (x : ℝ) : ℝ := if x ≤ 0 then 1 / 10 ^ 14 else x

/-- hnc_potentials.py 72-90: `g0_T_r` of the averaged spins, at a distance of the second grid. -/
noncomputable def gAveraged (u : Consts) (N : ℕ) (r1 : ℕ → ℝ) (ne T r : ℝ) : ℝ :=
  Interp.interpLR N r1 (fun j => clip ((1 - exchange u N r1 ne T j ^ 2) / 2 + 1 / 2)) (1 / 2) 1 r

/-- hnc_potentials.py 144-196: `g0_T_r` of equal spins, at a distance of the second grid; the densities are
`n_e / 2` (144). -/
noncomputable def gEqual (u : Consts) (N : ℕ) (r1 : ℕ → ℝ) (ne T r : ℝ) : ℝ :=
  Interp.interpLR N r1 (fun j => clip (1 - exchange u N r1 (ne / 2) T j ^ 2)) (1 / 2) 1 r

/-- hnc_potentials.py 95-104: the potential from the pair distribution function, on grids with `N` points. -/
noncomputable def invertAveraged (N : ℕ) (k r : ℕ → ℝ) (n kT : ℝ) (g : ℕ → ℝ) (i : ℕ) : ℝ :=
  let h := Hnc.fourierSine N k r (fun j => g j - 1) i
  let Nk := Hnc.fourierSine N k r (fun j => log (g j)) i
  let cs := h - Nk
  let c := h / (1 + n * h)
  (cs - c) * kT

/-- hnc_potentials.py 197-199: the matrix of the pair distribution functions. -/
def spinMatrix (g : ℕ → ℝ) (a b : Fin 2) (j : ℕ) : ℝ := if a = b then g j else 1

/-- hnc_potentials.py 203-226: the same for two spins; `n` are the densities of the spins (144). -/
noncomputable def invertSeparated (N : ℕ) (k r : ℕ → ℝ) (n : Fin 2 → ℝ) (kT : ℝ) (g : Fin 2 → Fin 2 → ℕ → ℝ)
    (a b : Fin 2) (i : ℕ) : ℝ :=
  let h : Matrix (Fin 2) (Fin 2) ℝ := fun a b => Hnc.fourierSine N k r (fun j => g a b j - 1) i
  let Nk := Hnc.fourierSine N k r (fun j => log (g a b j)) i
  let cs := h a b - Nk
  let c := (h * (1 + Matrix.diagonal n * h)⁻¹) a b
  (cs - c) * kT

open Classical in
/-- hnc_potentials.py 108-113 and 228-233: the last index with a wave number below the bound, 0 if there is
none (then all entries are -1 and the first one is the maximum). -/
noncomputable def lastBelow (N : ℕ) (k : ℕ → ℝ) (bound : ℝ) : ℕ :=
  Nat.findGreatest (fun i => k i < bound) (N - 1)

/-- hnc_potentials.py 115-127 and 235-249: the values at wave numbers below `k i1` are replaced by a parabola
through the values `f i1` and `f i2`.  The factors of lines 115-118 and 235-240 are those that give the
magnitudes their units again. -/
noncomputable def patch (k : ℕ → ℝ) (i1 i2 : ℕ) (f : ℕ → ℝ) (V : ℕ → ℝ) (i : ℕ) : ℝ :=
  let a := (f i2 - f i1) / (k i2 ^ 2 - k i1 ^ 2)
  let c := f i1 - a * k i1 ^ 2
  if k i < k i1 then a * k i ^ 2 + c else V i

/-- hnc_potentials.py 36-129 `pauli_potential_from_classical_map_SpinAveraged`: the second value; the first
one is `Hnc.kGrid N2 r2`, the third one `gAveraged`.  `ang` is the length of one angstrom. -/
noncomputable def potentialAveraged (u : Consts) (ang : ℝ) (N1 : ℕ) (r1 : ℕ → ℝ) (N2 : ℕ) (r2 : ℕ → ℝ) (ne T : ℝ) (i : ℕ) : ℝ :=
  let k2 := Hnc.kGrid N2 r2
  let V := invertAveraged N2 k2 r2 ne (u.kB * T) (fun j => gAveraged u N1 r1 ne T (r2 j))
  patch k2 (lastBelow N2 k2 (8 / 10 / ang)) (lastBelow N2 k2 (1 / ang)) V V i

/-- hnc_potentials.py 132-252 `pauli_potential_from_classical_map_SpinSeparated`: the second value.  The
parabola goes through the values for the second spin (235-237); it is used for all entries of the matrix,
because the condition of line 249 has one axis only. -/
noncomputable def potentialSeparated (u : Consts) (ang : ℝ) (N1 : ℕ) (r1 : ℕ → ℝ) (N2 : ℕ) (r2 : ℕ → ℝ) (ne T : ℝ)
    (a b : Fin 2) (i : ℕ) : ℝ :=
  let k2 := Hnc.kGrid N2 r2
  let V := invertSeparated N2 k2 r2 (fun _ => ne / 2) (u.kB * T)
    (spinMatrix fun j => gEqual u N1 r1 ne T (r2 j))
  patch k2 (lastBelow N2 k2 (1 / ang)) (lastBelow N2 k2 (2 / ang)) (V 1 1) (V a b) i

/-- hnc_potentials.py 1557-1559: the distances for the wave numbers `k`. -/
noncomputable def rOfK (N : ℕ) (k : ℕ → ℝ) (j : ℕ) : ℝ :=
  let dk := k 1 - k 0
  let dr := π / (N * dk)
  π / k (N - 1) + j * dr

/-- hnc_potentials.py 1561-1562: `r_calc`, for the Bohr radius `a0`. -/
noncomputable def rCalc (a0 : ℝ) (j : ℕ) : ℝ := Hnc.rGrid (2 ^ 21) (a0 / 1000) (10000 * a0) j

/-- hnc_potentials.py 1554-1587 `PauliClassicalMap.full_k` with separated spins, for `m` ions. -/
noncomputable def fullKSeparated (u : Consts) (ang a0 : ℝ) (m N : ℕ) (k : ℕ → ℝ) (ne T : ℝ) (a b : Fin (m + 2)) (i : ℕ) : ℝ :=
  if h : m ≤ a.1 ∧ m ≤ b.1 then
    potentialSeparated u ang (2 ^ 21) (rCalc a0) N (rOfK N k) ne T ⟨a.1 - m, by omega⟩ ⟨b.1 - m, by omega⟩ i
  else 0

/-- hnc_potentials.py 1588-1611 `PauliClassicalMap.full_k` with averaged spins, for `m` ions. -/
noncomputable def fullKAveraged (u : Consts) (ang a0 : ℝ) (m N : ℕ) (k : ℕ → ℝ) (ne T : ℝ) (a b : Fin (m + 1)) (i : ℕ) : ℝ :=
  if m ≤ a.1 ∧ m ≤ b.1 then potentialAveraged u ang (2 ^ 21) (rCalc a0) N (rOfK N k) ne T i else 0

/-- hnc_potentials.py 1613-1622 `PauliClassicalMap.full_r`, for one of the functions above as `fullK`. -/
noncomputable def fullR {m : ℕ} (fullK : (ℕ → ℝ) → Fin m → Fin m → ℕ → ℝ) (N : ℕ) (r : ℕ → ℝ) (a b : Fin m) (j : ℕ) : ℝ :=
  let k := Hnc.kGrid N r
  Hnc.fourierSine N r k (fullK k a b) j / (2 * π) ^ 3

end Verif.Pauli
