/-
The potentials for the hypernetted chain scheme, /repo/src/jaxrts/hnc_potentials.py, over the real numbers.
The sums, the multiples and the potentials with a formula are modelled here; `PauliClassicalMap`, which inverts
a hypernetted chain calculation, is in Model/PauliMap.

The methods of a potential return a matrix with one entry for each pair of species.  An entry depends on
the state only through the numbers collected in `Pair`.
-/
import Verif.Model.Setup
import Verif.Model.Hnc
import Verif.Model.Interp
import Mathlib.MeasureTheory.Integral.IntervalIntegral.Basic

set_option autoImplicit false

namespace Verif.Pot

open Real Verif.Expt Verif.Hnc Verif.Interp

variable (u : Consts)

/-! ### What a potential takes from the state -/

/-- The values of `include_electrons`, hnc_potentials.py 298-313. -/
inductive Mode
  | off
  | averaged
  | separated
  deriving DecidableEq

/-- The attributes of a `PlasmaState` which are used; one entry for each ion in the lists.  `kappa` is
hnc_potentials.py 849-857: the inverse of the screening length, which may be a matrix. -/
structure Plasma where
  Z : List ℝ
  ni : List ℝ
  mass : List ℝ
  Ti : List ℝ
  core : List ℝ
  ne : ℝ
  Te : ℝ
  kappa : ℕ → ℕ → ℝ

/-- An array of the ions, followed by one entry for each species of electrons: the `to_array` in
hnc_potentials.py 428-433, 438-445, 453-464 and 478-494. -/
def withElectrons (m : Mode) (ions : List ℝ) (one two : ℝ) : List ℝ :=
  match m with
  | .off => ions
  | .averaged => ions ++ [one]
  | .separated => ions ++ [two, two]

namespace Plasma

variable (p : Plasma) (m : Mode) (a b : ℕ)

/-- The number of species. -/
def size : ℕ := (withElectrons m p.Z 0 0).length

/-- hnc_potentials.py 424-435 `q2` with 264-266 `construct_q_matrix`. -/
noncomputable def q2 : ℝ :=
  let Z := withElectrons m p.Z (-1) (-1)
  arr Z a * u.e * (arr Z b * u.e)

/-- hnc_potentials.py 437-447 `alpha` with 255-261 `construct_alpha_matrix`. -/
noncomputable def alpha : ℝ :=
  let n := withElectrons m p.ni p.ne (p.ne / 2)
  let d := (3 / (4 * π * (arr n a * arr n b) ^ (1 / 2 : ℝ))) ^ (1 / 3 : ℝ)
  2 / d

/-- hnc_potentials.py 449-466 `mu`. -/
noncomputable def mu : ℝ :=
  let m := withElectrons m p.mass u.me u.me
  arr m a * arr m b / (arr m a + arr m b)

/-- hnc_potentials.py 468-495 `T` with hypernetted_chain.py 646-659 `mass_weighted_T`. -/
noncomputable def T : ℝ :=
  let M := withElectrons m p.mass u.me u.me
  let T := withElectrons m p.Ti p.Te p.Te
  (arr M a * arr T b + arr M b * arr T a) / (arr M a + arr M b)

/-- hnc_potentials.py 497-538 `r_cut`. -/
noncomputable def rCut : ℝ :=
  let n := p.size m
  match m with
  | .off => 0
  | .averaged =>
    if a = n - 1 ∧ b < n - 1 then arr p.core b
    else if a < n - 1 ∧ b = n - 1 then arr p.core a
    else 0
  | .separated =>
    if (a = n - 2 ∨ a = n - 1) ∧ b < n - 2 then arr p.core b
    else if a < n - 2 ∧ (b = n - 1 ∨ b = n - 2) then arr p.core a
    else 0

/-- hnc_potentials.py 540-545 `lambda_ab`. -/
noncomputable def lam : ℝ := u.hbar * sqrt (1 / (2 * p.mu u m a b * u.kB * p.T u m a b))

end Plasma

/-- The entries for one pair of species.  `ee` says that both are the same species of electrons. -/
structure Pair where
  q2 : ℝ
  alpha : ℝ
  lam : ℝ
  T : ℝ
  rcut : ℝ
  kappa : ℝ
  ee : Bool

/-- The entries for the pair `a, b`. -/
noncomputable def Plasma.pair (p : Plasma) (m : Mode) (a b : ℕ) : Pair where
  q2 := p.q2 u m a b
  alpha := p.alpha m a b
  lam := p.lam u m a b
  T := p.T u m a b
  rcut := p.rCut m a b
  kappa := p.kappa a b
  ee := decide (a = b ∧ p.Z.length ≤ a)

/-! ### Units

Units are modelled in one place only, where they decide whether a method returns at all. -/

/-- Exponents of the energy and of the length in a unit. -/
structure Dim where
  energy : ℤ
  length : ℤ
  deriving DecidableEq

/-- The unit of a product. -/
def Dim.mul (a b : Dim) : Dim := ⟨a.energy + b.energy, a.length + b.length⟩

/-- The unit of a quotient. -/
def Dim.div (a b : Dim) : Dim := ⟨a.energy - b.energy, a.length - b.length⟩

/-- The unit of a power. -/
def Dim.pow (a : Dim) (n : ℕ) : Dim := ⟨n * a.energy, n * a.length⟩

/-- The unit of a sum: quantities can be added only if their units agree. -/
def Dim.add (a b : Dim) : Option Dim := if a = b then some a else none

/-! ### The potentials with a formula -/

/-- `jax.scipy.special.erf`. -/
noncomputable def erf (x : ℝ) : ℝ := 2 / sqrt π * ∫ t in (0 : ℝ)..x, exp (-t ^ 2)

/-- The classes of potentials. -/
inductive Leaf
  | coulomb
  | debyeHueckel
  | kelbg
  | klimontovichKraeft
  | deutsch
  | emptyCore
  | yukawa (sigma : ℝ)
  | softCore (beta : ℝ)
  | exchangeSeparated
  | exchangeAveraged

/-- hnc_potentials.py 799-808; also 984, 1210, 1279, 1353-1354 and 1456-1457. -/
noncomputable def coulombR (P : Pair) (r : ℝ) : ℝ := P.q2 / (4 * π * u.eps0 * r)

/-- hnc_potentials.py 859-874; also 1352-1355 and 1369-1373. -/
noncomputable def debyeR (P : Pair) (r : ℝ) : ℝ := P.q2 / (4 * π * u.eps0 * r) * exp (-P.kappa * r)

/-- hnc_potentials.py 924-964. -/
noncomputable def kelbgR (P : Pair) (r : ℝ) : ℝ :=
  P.q2 / (4 * π * u.eps0 * r) *
    (1 - exp (-r ^ 2 / P.lam ^ 2) + sqrt π * r / P.lam * (1 - erf (r / P.lam)))

/-- hnc_potentials.py 1103-1134. -/
noncomputable def kkR (P : Pair) (r : ℝ) : ℝ :=
  let beta := 1 / (u.kB * P.T)
  let xi := P.q2 * beta / (4 * π * u.eps0 * P.lam)
  let pref := -(u.kB * P.T * xi ^ 2 / 16)
  let factor := u.kB * P.T * xi ^ 2
  let denominator := 16 * |P.q2| / (4 * π * u.eps0)
  pref * (1 + factor / denominator * r)⁻¹

/-- hnc_potentials.py 1157-1169. -/
noncomputable def deutschR (P : Pair) (r : ℝ) : ℝ :=
  P.q2 / (4 * π * u.eps0 * r) * (1 - exp (-r / (P.lam / sqrt π)))

/-- `jnp.heaviside(x, 0.0)`. -/
noncomputable def heaviside0 (x : ℝ) : ℝ := if x < 0 then 0 else if x = 0 then 0 else 1

/-- hnc_potentials.py 1264-1279. -/
noncomputable def emptyCoreR (P : Pair) (r : ℝ) : ℝ :=
  heaviside0 (r - P.rcut) * (P.q2 / (4 * π * u.eps0 * r))

/-- The unit of the first summand in hnc_potentials.py 1353-1355: an energy. -/
def yukawaDim1 : Dim := ⟨1, 0⟩

/-- The unit of the second summand in hnc_potentials.py 1356, `k_B * T * sigma**4 / r`. -/
def yukawaDim2 : Dim := ((⟨1, 0⟩ : Dim).mul ((⟨0, 1⟩ : Dim).pow 4)).div ⟨0, 1⟩

/-- hnc_potentials.py 1342-1356: the value, if the units allow the sum. -/
noncomputable def yukawaR (sigma : ℝ) (P : Pair) (r : ℝ) : ℝ :=
  debyeR u P r + 1 * u.kB * P.T * sigma ^ 4 / r

/-- The exponential in hnc_potentials.py 1449-1454 and 1474-1481, for `beta > 0`: without a core the
quotient is infinite and the exponential vanishes. -/
noncomputable def softCoreExp (beta rcut r : ℝ) : ℝ := if rcut = 0 then 0 else exp (-(r / rcut) ^ beta)

/-- hnc_potentials.py 1438-1459. -/
noncomputable def softCoreR (beta : ℝ) (P : Pair) (r : ℝ) : ℝ :=
  P.q2 / (4 * π * u.eps0 * r) * (1 - softCoreExp beta P.rcut r)

/-- hnc_potentials.py 1667-1688: the product with the unit matrix and the assignment of zero to the ions
leave the entries of the electrons with themselves. -/
noncomputable def exchangeSeparatedR (P : Pair) (r : ℝ) : ℝ :=
  if P.ee then -1 * u.kB * P.T * log (1 - exp (-(r ^ 2 / P.lam ^ 2))) else 0

/-- hnc_potentials.py 1699-1725, when the electrons are included as one species. -/
noncomputable def exchangeAveragedR (P : Pair) (r : ℝ) : ℝ :=
  if P.ee then u.kB * P.T * log 2 * exp (-1 / (π * log 2) * (r / (P.lam / sqrt π)) ^ 2) else 0

/-- hnc_potentials.py 1699-1725 for any mode, the entry `a, b`: the unit matrix has one row for each ion
and one more (line 1716), the temperatures have one row for each species.  `None` where the shapes do not
fit; a matrix with one entry is extended. -/
noncomputable def exchangeAveragedAt (p : Plasma) (m : Mode) (a b : ℕ) (r : ℝ) : Option ℝ :=
  let at_ := fun a' b' : ℕ =>
    if a = b ∧ p.Z.length ≤ a then
      u.kB * p.T u m a' b' * log 2 * exp (-1 / (π * log 2) * (r / (p.lam u m a' b' / sqrt π)) ^ 2)
    else 0
  if p.size m = p.Z.length + 1 then some (at_ a b)
  else if p.size m = 1 then some (at_ 0 0)
  else none

/-- The method `full_r` of a class. -/
noncomputable def fullR (P : Pair) : Leaf → Option (ℝ → ℝ)
  | .coulomb => some (coulombR u P)
  | .debyeHueckel => some (debyeR u P)
  | .kelbg => some (kelbgR u P)
  | .klimontovichKraeft => some (kkR u P)
  | .deutsch => some (deutschR u P)
  | .emptyCore => some (emptyCoreR u P)
  | .yukawa sigma => (yukawaDim1.add yukawaDim2).map fun _ => yukawaR u sigma P
  | .softCore beta => some (softCoreR u beta P)
  | .exchangeSeparated => some (exchangeSeparatedR u P)
  | .exchangeAveraged => some (exchangeAveragedR u P)

/-- The method `long_r`: by default hnc_potentials.py 385-398, and 970-985, 1196-1211, 1291-1293,
1358-1373 and 1461-1463. -/
noncomputable def longR (P : Pair) : Leaf → Option (ℝ → ℝ)
  | .kelbg | .deutsch => some fun r => coulombR u P r * (1 - exp (-P.alpha * r))
  | .emptyCore => fullR u P .emptyCore
  | .yukawa _ => some (debyeR u P)
  | .softCore beta => fullR u P (.softCore beta)
  | l => (fullR u P l).map fun f r => f r * (1 - exp (-P.alpha * r))

/-- The method `short_r`: by default hnc_potentials.py 370-383, and 966-968, 1192-1194, 1295-1300 and
1375-1378.  `SoftCorePotential.short_r` (1465-1467) reads an attribute `q` which does not exist. -/
noncomputable def shortR (P : Pair) : Leaf → Option (ℝ → ℝ)
  | .kelbg => do
    let f ← fullR u P .kelbg
    let l ← longR u P .kelbg
    return fun r => f r - l r
  | .deutsch => do
    let f ← fullR u P .deutsch
    let l ← longR u P .deutsch
    return fun r => f r - l r
  | .emptyCore => some fun _ => 0
  | .yukawa sigma => some fun r => sigma ^ 4 / r ^ 4 * 1 * u.kB * P.T
  | .softCore _ => none
  | l => (fullR u P l).map fun f r => f r * exp (-P.alpha * r)

/-- The attribute `_transform_r` of a potential, hnc_potentials.py 302. -/
structure Grid where
  N : ℕ
  r : ℕ → ℝ

/-- hnc_potentials.py 1739-1752 `transformPotential`, followed by `hnc_interp` (hypernetted_chain.py
690-695) at the wavenumber `k`. -/
noncomputable def transform (g : Grid) (f : ℝ → ℝ) (k : ℝ) : ℝ :=
  interp g.N (kGrid g.N g.r) (fourierSine g.N (kGrid g.N g.r) g.r fun j => f (g.r j)) k

/-- hnc_potentials.py 810-813; also 900, 1285-1287, 1383 and 1496-1498. -/
noncomputable def coulombK (P : Pair) (k : ℝ) : ℝ := P.q2 / u.eps0 / k ^ 2

/-- hnc_potentials.py 815-830; also 987-1004 and 1213-1230. -/
noncomputable def coulombLongK (P : Pair) (k : ℝ) : ℝ :=
  P.q2 / (k ^ 2 * u.eps0) * P.alpha ^ 2 / (k ^ 2 + P.alpha ^ 2)

/-- hnc_potentials.py 876-892. -/
noncomputable def debyeLongK (P : Pair) (k : ℝ) : ℝ :=
  P.q2 / (k ^ 2 * u.eps0) * k ^ 2 * (P.alpha ^ 2 + 2 * P.alpha * P.kappa) /
    ((k ^ 2 + P.kappa ^ 2) * (k ^ 2 + (P.kappa + P.alpha) ^ 2))

/-- hnc_potentials.py 894-901; also 1380-1384. -/
noncomputable def debyeK (P : Pair) (k : ℝ) : ℝ := coulombK u P k / (1 + (P.kappa / k) ^ 2)

/-- hnc_potentials.py 1171-1190. -/
noncomputable def deutschK (P : Pair) (k : ℝ) : ℝ :=
  P.q2 / (k ^ 2 * u.eps0) * (1 / P.lam) ^ 2 / (k ^ 2 + (1 / (P.lam / sqrt π)) ^ 2)

/-- hnc_potentials.py 1281-1289. -/
noncomputable def emptyCoreK (P : Pair) (k : ℝ) : ℝ := P.q2 / u.eps0 / k ^ 2 * cos (k * P.rcut)

/-- hnc_potentials.py 1469-1500. -/
noncomputable def softCoreK (g : Grid) (beta : ℝ) (P : Pair) (k : ℝ) : ℝ :=
  coulombK u P k -
    transform g (fun r => P.q2 / (4 * π * u.eps0 * r) * softCoreExp beta P.rcut r) k

/-- The method `long_k`: by default hnc_potentials.py 410-418.  `SoftCorePotential.long_k` (1502-1504)
calls `full_k` with an argument missing. -/
noncomputable def longK (g : Grid) (P : Pair) : Leaf → Option (ℝ → ℝ)
  | .coulomb | .kelbg | .deutsch => some (coulombLongK u P)
  | .debyeHueckel => some (debyeLongK u P)
  | .emptyCore => some (emptyCoreK u P)
  | .yukawa _ => some (debyeK u P)
  | .softCore _ => none
  | l => (longR u P l).map fun f => transform g f

/-- The method `short_k`: by default hnc_potentials.py 400-408, and 1306-1312.  `SoftCorePotential.short_k`
(1506-1512) reads an attribute `q` which does not exist. -/
noncomputable def shortK (g : Grid) (P : Pair) : Leaf → Option (ℝ → ℝ)
  | .emptyCore => some fun _ => 0
  | .softCore _ => none
  | l => (shortR u P l).map fun f => transform g f

/-- The method `full_k` at the `N` wavenumbers `k`: by default hnc_potentials.py 420-422.
`SpinAveragedEEExchange.full_k` (1727-1736) takes distances which fit to the wavenumbers. -/
noncomputable def fullK (g : Grid) (P : Pair) (N : ℕ) (k : ℕ → ℝ) : Leaf → Option (ℕ → ℝ)
  | .coulomb => some fun i => coulombK u P (k i)
  | .debyeHueckel => some fun i => debyeK u P (k i)
  | .deutsch => some fun i => deutschK u P (k i)
  | .emptyCore => some fun i => emptyCoreK u P (k i)
  | .softCore beta => some fun i => softCoreK u g beta P (k i)
  | .exchangeAveraged =>
    (fullR u P .exchangeAveraged).map fun f => fourierSine N k (kGrid N k) fun j => f (kGrid N k j)
  | l => do
    let s ← shortK u g P l
    let f ← longK u g P l
    return fun i => s (k i) + f (k i)

/-! ### Sums and multiples -/

/-- A potential which is built with `+` and `*`, hnc_potentials.py 547-569 and 594-789. -/
inductive Potential
  | leaf (l : Leaf)
  | sum (ps : List Potential)
  | scaled (p : Potential) (factor : ℝ)

/-- The sum over the results of a method. -/
def addUp {α : Type} : Option (α → ℝ) → Option (α → ℝ) → Option (α → ℝ)
  | some f, some g => some fun x => f x + g x
  | _, _ => none

mutual

/-- One method of a potential, given what it returns for the classes with a formula: hnc_potentials.py
640-692 and 742-764. -/
noncomputable def eval {α : Type} (method : Leaf → Option (α → ℝ)) : Potential → Option (α → ℝ)
  | .leaf l => method l
  | .sum ps => evalAll method ps
  | .scaled p c => (eval method p).map fun f x => f x * c

/-- The sum over the members. -/
noncomputable def evalAll {α : Type} (method : Leaf → Option (α → ℝ)) : List Potential → Option (α → ℝ)
  | [] => some fun _ => 0
  | p :: ps => addUp (eval method p) (evalAll method ps)

end

end Verif.Pot
