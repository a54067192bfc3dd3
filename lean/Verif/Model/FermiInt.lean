/-
Model of the Fermi integrals and their approximations: /repo/src/jaxrts/math.py.

Real numbers instead of floating point numbers; the numerical quadrature is the exact integral.  The
functions act on each entry of their argument, so the argument is one number here.
-/
import Mathlib.Analysis.SpecialFunctions.Gamma.Basic
import Mathlib.Analysis.SpecialFunctions.Pow.Real
import Mathlib.Analysis.SpecialFunctions.Log.Basic
import Mathlib.Data.List.GetD

set_option autoImplicit false

namespace Verif.FermiInt

open Real MeasureTheory

/-- math.py 11-26 `fermi_integral`. -/
noncomputable def fermiIntegral (x n : ℝ) : ℝ :=
  (∫ t in Set.Ioi (0 : ℝ), t ^ n / (exp (t - x) + 1)) / Gamma (n + 1)

/-- math.py 36-42: `sum(a * x ** arange(size(a)))`. -/
noncomputable def powerSum (a : List ℚ) (x : ℝ) : ℝ :=
  ((List.range a.length).map fun i => (a.getD i 0 : ℝ) * x ^ i).sum

/-- math.py 29-45 `_R1_mk`. -/
noncomputable def rational (a b : List ℚ) (x : ℝ) : ℝ := powerSum a x / powerSum b x

/-- The four lists of coefficients of an approximation, decimal fractions. -/
structure Coef where
  a : List ℚ
  b : List ℚ
  c : List ℚ
  d : List ℚ

/-- math.py 48-58 `_F_n`. -/
noncomputable def fermiF (k : Coef) (n x : ℝ) : ℝ :=
  (if x < 2 then exp x * rational k.a k.b (exp x)
    else x ^ (n + 1) * rational k.c k.d (x ^ (-2 : ℝ))) / Gamma (n + 1)

/-- math.py 61-69 `_X_n`; the argument is multiplied by the norm, and so is the logarithm's. -/
noncomputable def inverseX (k : Coef) (n x₀ : ℝ) : ℝ :=
  let norm := Gamma (n + 1)
  let x := x₀ * norm
  if x < 4 * norm then log (norm * x * rational k.a k.b x)
  else x ^ (1 / (1 + n)) * rational k.c k.d (x ^ (-1 / (1 + n)))

/-- math.py 161-222 `fermi_12_rational_approximation_antia`: the coefficients. -/
def c12 : Coef where
  a := [
    5.75834152995465e6, 1.30964880355883e7, 1.07608632249013e7, 3.93536421893014e6, 6.42493233715640e5,
    4.16031909245777e4, 7.77238678539648e2, 1.00000000000000e0]
  b := [
    6.49759261942269e6, 1.70750501625775e7, 1.69288134856160e7, 7.95192647756086e6, 1.83167424554505e6,
    1.95155948326832e5, 8.17922106644547e3, 9.02129136642157e1]
  c := [
    4.85378381173415e-14, 1.64429113030738e-11, 3.76794942277806e-09, 4.69233883900644e-07,
    3.40679845803144e-05, 1.32212995937796e-03, 2.60768398973913e-02, 2.48653216266227e-01,
    1.08037861921488e00, 1.91247528779676e00, 1.00000000000000e00]
  d := [
    7.28067571760518e-14, 2.45745452167585e-11, 5.62152894375277e-09, 6.96888634549649e-07,
    5.02360015186394e-05, 1.92040136756592e-03, 3.66887808002874e-02, 3.24095226486468e-01,
    1.16434871200131e00, 1.34981244060549e00, 2.01311836975930e-01, -2.14562434782759e-02]

/-- math.py 161-222 `fermi_12_rational_approximation_antia`. -/
noncomputable def fermi12 (x : ℝ) : ℝ := fermiF c12 (1/2) x

/-- math.py 226-288 `fermi_neg12_rational_approximation_antia`: the coefficients. -/
def cm12 : Coef where
  a := [
    1.71446374704454e7, 3.88148302324068e7, 3.16743385304962e7, 1.14587609192151e7, 1.83696370756153e6,
    1.14980998186874e5, 1.98276889924768e3, 1.00000000000000e0]
  b := [
    9.67282587452899e6, 2.87386436731785e7, 3.26070130734158e7, 1.77657027846367e7, 4.81648022267831e6,
    6.13709569333207e5, 3.13595854332114e4, 4.35061725080755e2]
  c := [
    -4.46620341924942e-15, -1.58654991146236e-12, -4.44467627042232e-10, -6.84738791621745e-8,
    -6.64932238528105e-6, -3.69976170193942e-4, -1.12295393687006e-2, -1.60926102124442e-1,
    -8.52408612877447e-1, -7.45519953763928e-1, 2.98435207466372e00, 1.0]
  d := [
    -2.23310170962369e-15, -7.94193282071464e-13, -2.22564376956228e-10, -3.43299431079845e-08,
    -3.33919612678907e-06, -1.86432212187088e-04, -5.69764436880529e-03, -8.34904593067194e-02,
    -4.78770844009440e-01, -4.99759250374148e-01, 1.86795964993052e00, 4.16485970495288e-01]

/-- math.py 226-288 `fermi_neg12_rational_approximation_antia`. -/
noncomputable def fermiNeg12 (x : ℝ) : ℝ := fermiF cm12 (-1/2) x

/-- math.py 292-348 `fermi_32_rational_approximation_antia`: the coefficients. -/
def c32 : Coef where
  a := [
    4.32326386604283e4, 8.55472308218786e4, 5.95275291210962e4, 1.77294861572005e4, 2.21876607796460e3,
    9.90562948053193e1, 1.00000000000000e0]
  b := [
    3.25218725353467e4, 7.01022511904373e4, 5.50859144223638e4, 1.95942074576400e4, 3.20803912586318e3,
    2.20853967067789e2, 5.05580641737527e0, 1.99507945223266e02]
  c := [
    2.80452693148553e-13, 8.60096863656367e-11, 1.62974620742993e-08, 1.63598843752050e-06,
    9.12915407846722e-05, 2.62988766922117e-03, 3.85682997219346e-02, 2.78383256609605e-01,
    9.02250179334496e-01, 1.00000000000000e00]
  d := [
    7.01131732871184e-13, 2.10699282897576e-10, 3.94452010378723e-08, 3.84703231868724e-06,
    2.04569943213216e-04, 5.31999109566385e-03, 6.39899717779153e-02, 3.14236143831882e-01,
    4.70252591891375e-01, -2.15540156936373e-02, 2.34829436438087e-03]

/-- math.py 292-348 `fermi_32_rational_approximation_antia`. -/
noncomputable def fermi32 (x : ℝ) : ℝ := fermiF c32 (3/2) x

/-- math.py 352-408 `fermi_52_rational_approximation_antia`: the coefficients. -/
def c52 : Coef where
  a := [
    6.61606300631656e4, 1.20132462801652e5, 7.67255995316812e4, 2.10427138842443e4, 2.44325236813275e3,
    1.02589947781696e2, 1.00000000000000e0]
  b := [
    1.99078071053871e4, 3.79076097261066e4, 2.60117136841197e4, 7.97584657659364e3, 1.10886130159658e3,
    6.35483623268093e1, 1.16951072617142e0, 3.31482978240026e-3]
  c := [
    8.42667076131315e-12, 2.31618876821567e-09, 3.54323824923987e-07, 2.77981736000034e-05,
    1.14008027400645e-03, 2.32779790773633e-02, 2.39564845938301e-01, 1.24415366126179e00, 3.18831203950106e00,
    3.42040216997894e00, 1.00000000000000e00]
  d := [
    2.94933476646033e-11, 7.68215783076936e-09, 1.12919616415947e-06, 8.09451165406274e-05,
    2.81111224925648e-03, 3.99937801931919e-02, 2.27132567866839e-01, 5.31886045222680e-01,
    3.70866321410385e-01, 2.27326643192516e-02]

/-- math.py 352-408 `fermi_52_rational_approximation_antia`. -/
noncomputable def fermi52 (x : ℝ) : ℝ := fermiF c52 (5/2) x

/-- math.py 412-456 `inverse_fermi_12_rational_approximation_antia`: the coefficients (the
first list `c` is overwritten). -/
def ci12 : Coef where
  a := [
    1.999266880833e4, 5.702479099336e3, 6.610132843877e2, 3.818838129486e1, 1.000000000000]
  b := [
    1.771804140488e4, -2.014785161019e3, 9.130355392717e1, -1.670718177489e0]
  c := [
    3.4873722e01, -2.6922515e01, 1.0000000e00]
  d := [
    2.6612832e01, -2.0452930e01, 1.1808945e01]

/-- math.py 412-456 `inverse_fermi_12_rational_approximation_antia`. -/
noncomputable def inverseFermi12Antia (x : ℝ) : ℝ := inverseX ci12 (1/2) x

/-- math.py 79-155, the pieces of `inverse_fermi_12_fukushima_single_prec` as functions of the argument
multiplied by the norm. -/
noncomputable def fukushimaPiece0 (x : ℝ) : ℝ :=
  log (x * rational [127.456123, 30.3620672, 2.29733586] [112.955041, -18.1545791, 1.0] x)

/-- math.py 127-131. -/
noncomputable def fukushimaPiece1 (x : ℝ) : ℝ :=
  rational [22.3158685, 122.487649, 135.023156, 30.5460708]
    [28.0566860, 59.9641578, 27.8629074, 1.0] (-0.550848552 + 0.452114610 * x)

/-- math.py 132-136. -/
noncomputable def fukushimaPiece2 (x : ℝ) : ℝ :=
  rational [74.0135089, 294.367987, 294.232354, 64.9306737]
    [27.8728584, 62.0649704, 27.1148810, 1.0] (-0.482411581 + 0.140636120 * x)

/-- math.py 137-141. -/
noncomputable def fukushimaPiece3 (x : ℝ) : ℝ :=
  rational [156.549383, 612.130579, 639.532875, 145.238686]
    [25.4019873, 59.3035998, 26.9857305, 1.0] (-0.442839571 + 0.0420121106 * x)

/-- math.py 142-146. -/
noncomputable def fukushimaPiece4 (x : ℝ) : ℝ :=
  rational [376.286772, 1449.93277, 1487.47498, 333.722383]
    [27.2967945, 61.1014417, 27.1844466, 1.0] (-0.416448071 + 0.0121259929 * x)

/-- math.py 147-155. -/
noncomputable def fukushimaPiece5 (x : ℝ) : ℝ :=
  sqrt (rational [1974.50048, 144.437558, 1.0] [10.3906494, 0.669052603]
      (1.0 + -111.632691 * x ^ (-4 / 3 : ℝ)) / (-(-111.632691) * x ^ (-4 / 3 : ℝ)))

/-- math.py 72-157 `inverse_fermi_12_fukushima_single_prec`: a sum of six terms, each one zero outside of
its interval. -/
noncomputable def inverseFermi12 (x₀ : ℝ) : ℝ :=
  let x := x₀ * Gamma (1 / 2 + 1.0)
  (if x < 1.22 then fukushimaPiece0 x else 0) +
  (if 1.22 ≤ x ∧ x < 3.43 then fukushimaPiece1 x else 0) +
  (if 3.43 ≤ x ∧ x < 10.5 then fukushimaPiece2 x else 0) +
  (if 10.5 ≤ x ∧ x < 34.3 then fukushimaPiece3 x else 0) +
  (if 34.3 ≤ x ∧ x < 117 then fukushimaPiece4 x else 0) +
  (if 117 ≤ x then fukushimaPiece5 x else 0)

end Verif.FermiInt
