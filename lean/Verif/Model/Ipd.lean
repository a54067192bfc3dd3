/-
Ionization potential depression: /repo/src/jaxrts/ipd.py and the classes of models.py 3440-4068, over
the real numbers.  Arrays over the ion species are functions on `Fin n`.  Units are not modelled
(`.to(ureg.electron_volt)` is the identity).
-/
import Verif.Model.Response
import Mathlib.MeasureTheory.Integral.IntegralEqImproper

set_option autoImplicit false

namespace Verif.Ipd

open Real MeasureTheory Set Verif.Expt Verif.Resp

variable (u : Consts) {n : ℕ}

/-- The screening of the electrons, `kappa_e_sq` or `kappa_e**2` (ipd.py 102-111, 227-236, 323-333,
437-456).  `arb = none` is `arb_deg=False`; `arb = some kE` is `arb_deg=True`, with `kE ne Te` for
`inverse_screening_length_e` (lines 26-60). -/
noncomputable def kappaESq (arb : Option (ℝ → ℝ → ℝ)) (ne Te : ℝ) : ℝ :=
  match arb with
  | none => u.e ^ 2 * ne / (1 * u.eps0 * u.kB * Te)
  | some kE => kE ne Te ^ 2

/-- ipd.py 26-60 `inverse_screening_length_e`; `fermi` stands for
`fermi_neg12_rational_approximation_antia` of math.py and `mu` for the interpolated chemical
potential. -/
noncomputable def inverseScreeningE (fermi : ℝ → ℝ) (mu : ℝ → ℝ → ℝ) (ne Te : ℝ) : ℝ :=
  let beta := 1 / (1 * u.kB * Te)
  let wl := sqrt (2 * π * 1 * u.hbar ^ 2 / (1 * u.me * 1 * u.kB * Te))
  let kSq := (-1 * u.e) ^ 2 / (u.eps0 * u.kB * Te) * (2 / wl ^ 3) * fermi (mu Te ne * beta)
  sqrt kSq

/-- The screening of the ions, `kappa_i_sq`: ipd.py 99-101, 223-225, 319-321.  The sum over the
species is divided by the temperature of the species `j` the entry belongs to (`Ti` is an array). -/
noncomputable def kappaISq (Zbar ni : Fin n → ℝ) (Tj : ℝ) : ℝ :=
  (∑ i, Zbar i ^ 2 * u.e ^ 2 * ni i) / (1 * u.eps0 * u.kB * Tj)

/-- `kappa_D` of one entry. -/
noncomputable def kappaD (arb : Option (ℝ → ℝ → ℝ)) (Zbar ni : Fin n → ℝ) (ne Te Tj : ℝ) : ℝ :=
  sqrt (kappaISq u Zbar ni Tj + kappaESq u arb ne Te)

/-- ipd.py 63-118 `ipd_debye_hueckel`, the entry of species `j`; `Zi` is the charge state of that
species and `Zbar` the array of mean charges (`Zbar=None` means `Zbar = Zi`). -/
noncomputable def debyeHueckel (arb : Option (ℝ → ℝ → ℝ)) (Zi : ℝ) (Zbar ni Ti : Fin n → ℝ) (ne Te : ℝ)
    (j : Fin n) : ℝ :=
  kappaD u arb Zbar ni ne Te (Ti j) * (-(Zi + 1) * u.e ^ 2 / (4 * π * u.eps0))

/-- `jnp.clip(x, 1e-6)`. -/
noncomputable def clipZ (x : ℝ) : ℝ := max x (1 / 1000000)

/-- ipd.py 121-172 `ipd_ion_sphere`, the entry of species `j`; `C` is `None` or the factor. -/
noncomputable def ionSphere (C : Option ℝ) (Zi : ℝ) (Zbar : Fin n → ℝ) (ne : ℝ) (j : Fin n) : ℝ :=
  let R0 := (3 * clipZ (Zbar j) / (4 * π * ne)) ^ (1 / 3 : ℝ);
  -(C.getD (3 / 2) * (clipZ Zi + 1) * 1 * u.e ^ 2) / (R0 * 4 * π * 1 * u.eps0)

/-- ipd.py 175-248 `ipd_stewart_pyatt`, the entry of species `j`. -/
noncomputable def stewartPyatt (arb : Option (ℝ → ℝ → ℝ)) (Zi : ℝ) (Zbar ni Ti : Fin n → ℝ)
    (ne Te : ℝ) (j : Fin n) : ℝ :=
  let kD := kappaD u arb (fun i => clipZ (Zbar i)) ni ne Te (Ti j)
  let R0 := (3 / (4 * π * ∑ i, ni i)) ^ (1 / 3 : ℝ)
  let s := 1 / kD / R0;
  -(3 * (clipZ Zi + 1) * u.e ^ 2) / (8 * π * u.eps0 * R0) * ((1 + s ^ 3) ^ (2 / 3 : ℝ) - s ^ 2)

/-- ipd.py 307-313: `Zbar` (per species) and `Zp` of `ipd_stewart_pyatt_preston`.  Without a
population both are derived from the electron density; with one, `jnpu.mean` averages over the
entries of the array. -/
noncomputable def prestonZ (pop : Option (List ℝ)) (ni : Fin n → ℝ) (ne : ℝ) : (Fin n → ℝ) × ℝ :=
  match pop with
  | none => (fun i => ne / ni i, ne / ∑ i, ni i)
  | some p =>
    let Zb := ((List.range p.length).map fun k : ℕ => (k : ℝ) * p.getD k 0).sum / p.length
    let Z2 := ((List.range p.length).map fun k : ℕ => (k : ℝ) ^ 2 * p.getD k 0).sum / p.length
    (fun _ => Zb, Z2 / Zb)

/-- ipd.py 251-360 `ipd_stewart_pyatt_preston`, the entry of species `j`. -/
noncomputable def preston (arb : Option (ℝ → ℝ → ℝ)) (pop : Option (List ℝ)) (crowley : Bool) (Zi : ℝ)
    (ni Ti : Fin n → ℝ) (ne Te : ℝ) (j : Fin n) : ℝ :=
  let Zbar := (prestonZ pop ni ne).1
  let Zp := (prestonZ pop ni ne).2
  let cc : ℝ := if crowley then 0 else 1
  let lambdaD := 1 / kappaD u arb Zbar ni ne Te (Ti j)
  let L := 3 * (Zp + cc) * (Zi + 1) * u.e ^ 2 / (4 * u.eps0 * π * lambdaD * u.kB * Ti j);
  -(1 * u.kB * Ti j) / (2 * (Zp + cc)) * ((1 + L) ^ (2 / 3 : ℝ) - 1)

/-- ipd.py 414-419: the critical density of `ipd_ecker_kroell` for a species with nuclear charge
`Zmax`. -/
noncomputable def criticalDensity (Te Zmax : ℝ) : ℝ :=
  3 / (4 * π) * (4 * π * 1 * u.eps0 * u.kB * Te / (Zmax ^ 2 * u.e ^ 2)) ^ 3

/-- ipd.py 428-443: `kappa_i_sq` of `ipd_ecker_kroell`; here the temperature is inside of the sum. -/
noncomputable def kappaISqEK (Zbar ni Ti : Fin n → ℝ) : ℝ :=
  ∑ i, Zbar i ^ 2 * u.e ^ 2 * ni i / (1 * u.eps0 * u.kB * Ti i)

/-- ipd.py 363-488 `ipd_ecker_kroell`, the entry of species `j`. -/
noncomputable def eckerKroell (arb : Option (ℝ → ℝ → ℝ)) (C : Option ℝ) (Zi : ℝ)
    (Zbar ni Ti Zmax : Fin n → ℝ) (ne Te : ℝ) (j : Fin n) : ℝ :=
  let nc := criticalDensity u Te (Zmax j)
  let neCrit := nc / (ne + ∑ i, ni i) * ne
  let niCrit := fun i => nc / (ne + ∑ i, ni i) * ni i
  let kD := sqrt (kappaISqEK u Zbar ni Ti + kappaESq u arb ne Te)
  let kDCrit := sqrt (kappaISqEK u Zbar niCrit Ti + kappaESq u arb neCrit Te)
  let lambdaD := 1 / kD
  let R := (3 / (4 * π * (ne + ni j))) ^ (1 / 3 : ℝ)
  let RCrit := (3 / (4 * π * nc)) ^ (1 / 3 : ℝ)
  let C' := C.getD (kDCrit * RCrit)
  let c1 := -1 * u.e ^ 2 / (4 * π * u.eps0 * lambdaD) * (Zi + 1)
  let c2 := -C' * u.e ^ 2 / (4 * π * u.eps0 * R) * (Zi + 1)
  if ni j + ne ≤ nc then c1 else c2

/-- ipd.py 491-560 `ipd_pauli_blocking`; `mu` is the interpolated chemical potential at `Te`, `ne`.
The quadrature over `[0, ∞)` is the exact integral. -/
noncomputable def pauliBlocking (Zi mu Te : ℝ) : ℝ :=
  let aZ := bohr u / clipZ Zi
  let I := ∫ p in Ioi (0 : ℝ), p ^ 2 / (1 + aZ ^ 2 * p ^ 2) ^ 3 *
    (1 / (exp (((1 * u.hbar * p) ^ 2 / (2 * u.me) - mu) / (1 * u.kB * Te)) + 1));
  -((clipZ Zi + 1) * u.e ^ 2 / (4 * π * u.eps0) * (16 * aZ ^ 2) / π * I)

/-- models.py 4031-4036 `IPDSum.evaluate`. -/
noncomputable def ipdSum (l : List ℝ) : ℝ := l.foldl (fun out x => out + x) 0

end Verif.Ipd
