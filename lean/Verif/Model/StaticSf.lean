/-
Static structure factors, screening charges and the Rayleigh weight:
/repo/src/jaxrts/static_structure_factors.py, /repo/src/jaxrts/ion_feature.py and the ion feature models
of /repo/src/jaxrts/models.py over the real numbers.  Units are not modelled.
-/
import Verif.Model.Fermi
import Verif.Model.Bisection

set_option autoImplicit false

namespace Verif.Ssf

open Real Verif.Expt Verif.Resp

variable (u : Consts)

/-! ### Arkhipov and Davletov -/

/-- static_structure_factors.py 88-109 `_lambda_AD`. -/
noncomputable def lambdaAD (T m1 m2 : ℝ) : ℝ :=
  u.hbar / sqrt (2 * π * (m1 * m2 / (m1 + m2)) * u.kB * T)

/-- static_structure_factors.py 122-124 `_b_AD`. -/
noncomputable def bAD (lam : ℝ) : ℝ := 1 / (lam ^ 2 * π * log 2)

/-- static_structure_factors.py 127-141 `_A_AD`. -/
noncomputable def aAD (Te b : ℝ) : ℝ :=
  u.kB * Te * log 2 * π ^ (3 / 2 : ℝ) * b ^ (-3 / 2 : ℝ) * u.eps0 / u.e ^ 2

/-- static_structure_factors.py 144-174 `_Delta_AD`. -/
noncomputable def deltaAD (k kDe kDi lee lii lei b A : ℝ) : ℝ :=
  k ^ 4 + k ^ 2 * kDe ^ 2 / (1 + k ^ 2 * lee ^ 2) + k ^ 2 * kDi ^ 2 / (1 + k ^ 2 * lii ^ 2) +
    kDe ^ 2 * kDi ^ 2 *
      (1 / ((1 + k ^ 2 * lee ^ 2) * (1 + k ^ 2 * lii ^ 2)) - 1 / (1 + k ^ 2 * lei ^ 2) ^ 2) +
    A * k ^ 2 * kDe ^ 2 * (k ^ 2 + kDi ^ 2 / (1 + k ^ 2 * lii ^ 2)) * exp (-k ^ 2 / (4 * b))

/-- static_structure_factors.py 206-264 `_Phi_ee_AD`. -/
noncomputable def phiEe (k Te Ti ne mi Zf : ℝ) : ℝ :=
  let Tei := tRsGreg Te Ti u.me mi
  let lee := lambdaAD u Te u.me u.me
  let lei := lambdaAD u Tei u.me mi
  let lii := lambdaAD u Ti mi mi
  let b := bAD lee
  let A := aAD u Te b
  let kDe := kDAD u Te ne
  let kDi := kDAD u Ti ne Zf
  let Delta := deltaAD k kDe kDi lee lii lei b A
  u.e ^ 2 / (u.eps0 * Delta) *
    (k ^ 2 / (1 + k ^ 2 * lee ^ 2) +
      kDi ^ 2 * (1 / ((1 + k ^ 2 * lee ^ 2) * (1 + k ^ 2 * lii ^ 2)) - 1 / (1 + k ^ 2 * lei ^ 2) ^ 2) +
      A * (k ^ 2 + kDi ^ 2 / (1 + k ^ 2 * lii ^ 2)) * k ^ 2 * exp (-k ^ 2 / (4 * b)))

/-- static_structure_factors.py 267-324 `_Phi_ii_AD`. -/
noncomputable def phiIi (k Te Ti ne mi Zf : ℝ) : ℝ :=
  let Tei := tRsGreg Te Ti u.me mi
  let lee := lambdaAD u Te u.me u.me
  let lei := lambdaAD u Tei u.me mi
  let lii := lambdaAD u Ti mi mi
  let b := bAD lee
  let A := aAD u Te b
  let kDe := kDAD u Te ne
  let kDi := kDAD u Ti ne Zf
  let Delta := deltaAD k kDe kDi lee lii lei b A
  Zf ^ 2 * u.e ^ 2 / (u.eps0 * Delta) *
    (k ^ 2 / (1 + k ^ 2 * lii ^ 2) +
      kDe ^ 2 * (1 / ((1 + k ^ 2 * lee ^ 2) * (1 + k ^ 2 * lii ^ 2)) - 1 / (1 + k ^ 2 * lei ^ 2) ^ 2) +
      A * k ^ 2 * kDe ^ 2 / (1 + k ^ 2 * lii ^ 2) * exp (-k ^ 2 / (4 * b)))

/-- static_structure_factors.py 327-376 `_Phi_ei_AD`. -/
noncomputable def phiEi (k Te Ti ne mi Zf : ℝ) : ℝ :=
  let Tei := tRsGreg Te Ti u.me mi
  let lee := lambdaAD u Te u.me u.me
  let lei := lambdaAD u Tei u.me mi
  let lii := lambdaAD u Ti mi mi
  let b := bAD lee
  let A := aAD u Te b
  let kDe := kDAD u Te ne
  let kDi := kDAD u Ti ne Zf
  let Delta := deltaAD k kDe kDi lee lii lei b A;
  -(Zf * u.e ^ 2 / (u.eps0 * Delta)) * (k ^ 2 / (1 + k ^ 2 * lei ^ 2))

/-- static_structure_factors.py 379-420 `S_ii_AD`. -/
noncomputable def sIiAD (k Te Ti ne mi Zf : ℝ) : ℝ :=
  1 - ne / Zf / (u.kB * Ti) * phiIi u k Te Ti ne mi Zf

/-- static_structure_factors.py 423-470 `S_ei_AD`. -/
noncomputable def sEiAD (k Te Ti ne mi Zf : ℝ) : ℝ :=
  -sqrt (ne / Zf * ne) / (u.kB * tRsGreg Te Ti u.me mi) * phiEi u k Te Ti ne mi Zf

/-- static_structure_factors.py 473-530 `S_ee_AD`. -/
noncomputable def sEeAD (k Te Ti ne mi Zf : ℝ) : ℝ :=
  let q := sqrt Zf * sEiAD u k Te Ti ne mi Zf / sIiAD u k Te Ti ne mi Zf
  1 - ne / (u.kB * Te) * phiEe u k Te Ti ne mi Zf -
    (Te / Ti - 1) * |q| ^ 2 / Zf * sIiAD u k Te Ti ne mi Zf

/-! ### Screening charges -/

/-- ion_feature.py 26-79 `q_Gregori2004`. -/
noncomputable def qGregori2004 (k mi ne Te Ti Zf : ℝ) : ℂ :=
  let Sei := sEiAD u k Te Ti ne mi Zf
  let See := sEeAD u k Te Ti ne mi Zf
  let Sii := sIiAD u k Te Ti ne mi Zf
  ((sqrt Zf * Sei / (See * Sii - Sei ^ 2) : ℝ) : ℂ) / epsSalpeter u k Te ne 0

/-- ion_feature.py 82-107 `q_Glenzer2009`. -/
noncomputable def qGlenzer2009 (Sei Sii Zf : ℝ) : ℝ := sqrt Zf * Sei / Sii

/-- ion_feature.py 110-157 `q_FiniteWLChapman2015`: the susceptibility `chi0`
(`noninteracting_susceptibility_Dandrea1986` at zero energy) is an argument. -/
noncomputable def qFiniteWL (k chi0 Vei lfc : ℝ) : ℝ :=
  let Vee := coulombFourier u (-1) (-1) k
  let eps := 1 - Vee * (1 - lfc) * chi0
  chi0 * Vei / eps

/-- ion_feature.py 160-187 `q_DebyeHueckelChapman2015` for one ion and one wave number. -/
noncomputable def qDebyeHueckel (k kappa Zf : ℝ) : ℝ := Zf * kappa ^ 2 / (k ^ 2 + kappa ^ 2)

/-- ion_feature.py 190-224 `free_electron_susceptilibily_RPA`. -/
noncomputable def freeElectronSusc (k kappa lfc : ℝ) : ℝ :=
  let xi0 := kappa ^ 2 * u.eps0 / u.e ^ 2
  let Vee := -1 * coulombFourier u (-1) (-1) k
  let eps := 1 - Vee * (1 - lfc) * xi0
  xi0 / eps

/-- hnc_potentials.py 424-435 `q2` and 264-265 `construct_q_matrix`: the row of the electrons, with
`include_electrons = "SpinAveraged"`. -/
noncomputable def q2Electron (Zf : ℝ) : ℝ := (-1 * u.e) * (Zf * u.e)

/-- hnc_potentials.py 810-813 `CoulombPotential.full_k`, the entries `[-1, :-1]`. -/
noncomputable def coulombEi (k Zf : ℝ) : ℝ := q2Electron u Zf / u.eps0 / k ^ 2

/-- models.py 4238-4263 `LinearResponseScreeningGericke2010.evaluate` with an electron-ion potential
`Vei`, one entry of the result.  `Zsum` is the sum of the charges. -/
noncomputable def qGericke2010 (k kappa lfc Zsum Vei : ℝ) : ℝ :=
  if Zsum = 0 then 0 else freeElectronSusc u k kappa lfc * Vei

/-- models.py 4425-4448 `DebyeHueckelScreening.evaluate`. -/
noncomputable def dhScreening (k kappa Zf : ℝ) : ℝ := if Zf = 0 then 0 else qDebyeHueckel k kappa Zf

/-- models.py 4381-4399 `FiniteWavelengthScreening.evaluate` with the Coulomb potential. -/
noncomputable def finiteWlScreening (k chi0 Zf lfc : ℝ) : ℝ :=
  if Zf = 0 then 0 else qFiniteWL u k chi0 (coulombEi u k Zf) lfc

/-- models.py 4527-4546 `Gregori2004Screening.evaluate`. -/
noncomputable def gregori2004Screening (k mi ne Te Zf : ℝ) : ℝ :=
  if Zf = 0 then 0 else (qGregori2004 u k mi ne Te Te Zf).re

/-! ### Charged hard spheres -/

/-- static_structure_factors.py 772-776 `_G07eta`. -/
noncomputable def g07eta (ni sig : ℝ) : ℝ := π / 6 * (ni * sig ^ 3)

/-- static_structure_factors.py 779-786 `_G07gamma`. -/
noncomputable def g07gamma (Z T sig : ℝ) : ℝ := Z ^ 2 * u.e ^ 2 / (4 * π * u.eps0 * sig * u.kB * T)

/-- static_structure_factors.py 789-793 `_G07chi`. -/
noncomputable def g07chi (ni Z T sig : ℝ) : ℝ := sqrt (24 * g07eta ni sig * g07gamma u Z T sig)

/-- static_structure_factors.py 796-804 `_G07h0`. -/
noncomputable def g07h0 (ni Z T sig : ℝ) : ℝ :=
  let eta := g07eta ni sig
  let chi := g07chi u ni Z T sig
  (1 + 2 * eta) / (1 - eta) * (1 - sqrt (1 + 2 * (1 - eta) ^ 3 * chi / (1 + 2 * eta) ^ 2))

/-- static_structure_factors.py 807-814 `_G07h1`. -/
noncomputable def g07h1 (ni Z T sig : ℝ) : ℝ :=
  let eta := g07eta ni sig
  g07h0 u ni Z T sig ^ 2 / (24 * eta) - (1 + eta / 2) / (1 - eta) ^ 2

/-- static_structure_factors.py 834: the mean distance of the ions. -/
noncomputable def chsDist (ne Zf : ℝ) : ℝ := (3 / (4 * π) * Zf / ne) ^ (1 / 3 : ℝ)

/-- static_structure_factors.py 835-844: `sig` is the diameter found by the bisection.  The code counts
in ångström, here all lengths are in one unit. -/
def ChsDiameter (ni Zf Ti ne sig : ℝ) : Prop :=
  ∃ n, Bisection.Returns (g07h1 u ni Zf Ti) ⟨1 / 10 ^ 15, 10000, 0⟩
    (1 / 1000 * chsDist ne Zf) (21 / 10 * chsDist ne Zf) sig n

/-- static_structure_factors.py 846-891: the direct correlation function `Cii` of the charged hard
spheres of diameter `sig`. -/
noncomputable def chsCii (k ni Zf Ti sig : ℝ) : ℝ :=
  let eta := g07eta ni sig
  let gamma := g07gamma u Zf Ti sig
  let chi := g07chi u ni Zf Ti sig
  let q := k * sig
  let S := sin q
  let C := cos q
  let h0 := g07h0 u ni Zf Ti sig
  let h1 := g07h1 u ni Zf Ti sig
  let h2 := -(1 + eta - eta ^ 2 / 5) / (12 * eta) - (1 - eta) * h0 / (12 * eta * chi);
  let y0 := -((1 + 2 * eta) ^ 2 / (1 - eta) ^ 4) + h0 ^ 2 / (4 * (1 - eta) ^ 2) -
    (1 + eta) * h0 * chi / (12 * eta) - (5 + eta ^ 2) * chi ^ 2 / (60 * eta);
  let y1 := 6 * eta * h1 ^ 2
  let y2 := chi ^ 2 / 6
  let y3 := eta / 2 * (y0 + chi ^ 2 * h2)
  let y4 := eta * chi ^ 2 / 60
  24 * eta / q ^ 6 *
    (y0 * q ^ 3 * (S - q * C) +
      y1 * q ^ 2 * (2 * q * S - (q ^ 2 - 2) * C - 2) +
      y2 * q * ((3 * q ^ 2 - 6) * S - (q ^ 2 - 6) * q * C) +
      y3 * ((4 * q ^ 2 - 24) * q * S - (q ^ 4 - 12 * q ^ 2 + 24) * C + 24) +
      y4 * (6 * (q ^ 4 - 20 * q ^ 2 + 120) * q * S -
        (q ^ 6 - 30 * q ^ 4 + 360 * q ^ 2 - 720) * C - 720) / q ^ 2 -
      gamma * q ^ 4 * C)

/-- static_structure_factors.py 896, 926, 954: `S_ee0`. -/
noncomputable def chsSee0 (k kDe lfc : ℝ) : ℝ := k ^ 2 / (k ^ 2 + kDe ^ 2 * (1 - lfc))

/-- static_structure_factors.py 897, 927, 955: `q_sc`. -/
noncomputable def chsQ (k kDe Zf lfc : ℝ) : ℝ := Zf * (kDe / k) ^ 2 * chsSee0 k kDe lfc

open Classical in
/-- static_structure_factors.py 893-905: the screened structure factor, the last lines of `S_ii_CHS`. -/
noncomputable def chsScreened (k kDe kDi Zf sig lfc Cii : ℝ) : ℝ :=
  let SOCP := 1 / (1 - Cii)
  let f := -(cos (k * sig / 2) ^ 2 * chsQ k kDe Zf lfc / Zf * (kDi / k) ^ 2)
  let f := if k < π / sig then f else 0
  SOCP / (1 + f * SOCP)

/-- static_structure_factors.py 817-905 `S_ii_CHS` with the diameter `sig`. -/
noncomputable def sIiCHS (k Te Ti ne Zf ni lfc sig : ℝ) : ℝ :=
  chsScreened k (kDAD u Te ne) (kDAD u Ti ne Zf) Zf sig lfc (chsCii u k ni Zf Ti sig)

/-- static_structure_factors.py 908-929 `S_ei_CHS` with the diameter `sig`. -/
noncomputable def sEiCHS (k Te Ti ne Zf ni lfc sig : ℝ) : ℝ :=
  chsQ k (kDAD u Te ne) Zf lfc / sqrt Zf * sIiCHS u k Te Ti ne Zf ni lfc sig

/-- static_structure_factors.py 932-957 `S_ee_CHS` with the diameter `sig`. -/
noncomputable def sEeCHS (k Te Ti ne Zf ni lfc sig : ℝ) : ℝ :=
  chsQ k (kDAD u Te ne) Zf lfc ^ 2 / Zf * sIiCHS u k Te Ti ne Zf ni lfc sig + chsSee0 k (kDAD u Te ne) lfc

/-! ### Debye-Waller factor -/

/-- static_structure_factors.py 746-757 `phi`; `quad` is the exact integral. -/
noncomputable def dwPhi (y : ℝ) : ℝ := 1 / y * ∫ x in (0 : ℝ)..y, x / (exp x - 1)

/-- static_structure_factors.py 720-769 `debyeWallerFactor`; `M` is the molar mass, `NA` the constant
of Avogadro, `theta` a single Debye temperature. -/
noncomputable def debyeWaller (NA k M theta T : ℝ) : ℝ :=
  let Q := k / (2 * π)
  exp (-(3 * (2 * π * u.hbar) ^ 2 * NA * Q ^ 2 / (M * u.kB * theta) * (T / theta * dwPhi (theta / T) + 1 / 4)))

/-- models.py 1330-1345 `DebyeWallerSolid.S_ii`, one entry. -/
def debyeWallerSolid (dw Splasma b : ℝ) : ℝ := Splasma * ((1 - dw) + dw * b)

/-! ### Mixtures and the Rayleigh weight -/

/-- The part of a plasma state which the ion feature models read. -/
structure Mix (m : ℕ) where
  n : Fin m → ℝ
  Z : Fin m → ℝ
  mass : Fin m → ℝ
  Ti : Fin m → ℝ
  Te : ℝ
  ne : ℝ

namespace Mix

variable {m : ℕ} (s : Mix m)

/-- models.py 521: the density of all ions. -/
noncomputable def ntot : ℝ := ∑ a, s.n a

/-- models.py 522: the mean charge. -/
noncomputable def zf : ℝ := 1 / s.ntot * ∑ a, s.n a * s.Z a

/-- models.py 523: the mean mass. -/
noncomputable def mbar : ℝ := 1 / s.ntot * ∑ a, s.n a * s.mass a

/-- plasmastate.py 420-425 `number_fraction`. -/
noncomputable def x (a : Fin m) : ℝ := s.n a / ∑ b, s.n b

/-- models.py 647-648: the mean of the effective ion temperatures, `TD` are the Debye temperatures. -/
noncomputable def tiEff (TD : Fin m → ℝ) : ℝ := 1 / s.ntot * ∑ a, s.n a * tIEffGreg (s.Ti a) (TD a)

/-- models.py 710: the density used by the charged hard sphere model. -/
noncomputable def nChs : ℝ := 1 / s.ntot * ∑ a, s.n a ^ 2

/-- models.py 532-536, 590-594, 658-662, 724-728: the extension to many components. -/
noncomputable def sAb (Sii : ℝ) (a b : Fin m) : ℝ :=
  (if a = b then 1 else 0) + sqrt (s.n a * s.n b) / s.ntot * (s.Z a * s.Z b) / s.zf ^ 2 * (Sii - 1)

/-- models.py 517-536 `ArkhipovIonFeat.S_ii`. -/
noncomputable def arkhipov (k : ℝ) : Fin m → Fin m → ℝ :=
  s.sAb (sIiAD u k s.Te s.Te s.ne s.mbar s.zf)

/-- models.py 570-594 `Gregori2003IonFeat.S_ii`. -/
noncomputable def gregori2003 (k : ℝ) : Fin m → Fin m → ℝ :=
  let T := tCfGreg u s.Te s.ne
  s.sAb (sIiAD u k T T s.ne s.mbar s.zf)

/-- models.py 634-662 `Gregori2006IonFeat.S_ii`. -/
noncomputable def gregori2006 (TD : Fin m → ℝ) (k : ℝ) : Fin m → Fin m → ℝ :=
  s.sAb (sIiAD u k (tCfGreg u s.Te s.ne) (s.tiEff TD) s.ne s.mbar s.zf)

/-- models.py 703-728 `CHSIonFeat.S_ii` with the diameter `sig`. -/
noncomputable def chs (TD : Fin m → ℝ) (k lfc sig : ℝ) : Fin m → Fin m → ℝ :=
  s.sAb (sIiCHS u k (tCfGreg u s.Te s.ne) (s.tiEff TD) s.ne s.zf s.nChs lfc sig)

/-- models.py 4296-4330 `GregoriCHSScreening.evaluate`. -/
noncomputable def chsScreening (TD : Fin m → ℝ) (k lfc sig : ℝ) (a : Fin m) : ℝ :=
  if s.Z a = 0 then 0 else
    qGlenzer2009 (sEiCHS u k (tCfGreg u s.Te s.ne) (s.tiEff TD) s.ne s.zf s.nChs lfc sig)
      (sIiCHS u k (tCfGreg u s.Te s.ne) (s.tiEff TD) s.ne s.zf s.nChs lfc sig) (s.Z a)

/-- models.py 393-456 `IonFeatModel.Rayleigh_weight`, with the form factors `f`, the screening `q` and
the structure factors `S`. -/
noncomputable def rayleigh (f q : Fin m → ℝ) (S : Fin m → Fin m → ℝ) : ℝ :=
  ∑ a, ∑ b, sqrt (s.x a * s.x b) * (f a + q a) * (f b + q b) * S a b

end Mix

/-- models.py 458-467 `IonFeatModel.evaluate` at one energy: instrument function, frequency
redistribution factor and the mean atomic number. -/
noncomputable def ionFeature (W inst frc meanZ : ℝ) : ℝ := W * inst * frc / meanZ

/-- models.py 1245-1251 `PeakCollection.S_ii`, one entry: positions and intensities of the peaks. -/
noncomputable def peakCollection (peaks : List (ℝ × ℝ)) (shape : ℝ → ℝ) (k : ℝ) : ℝ :=
  (peaks.map fun p => shape (k - p.1) * p.2).sum

end Verif.Ssf
