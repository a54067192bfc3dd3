/-
Certificates for the rational approximations of the Fermi integrals: polynomials whose positivity the
kernel tests.
-/
import Verif.Lemmas.FermiSeries
import Mathlib.Analysis.Real.Pi.Bounds
import Mathlib.Analysis.Calculus.Deriv.Inv
import Mathlib.Analysis.SpecialFunctions.Pow.Deriv

set_option autoImplicit false

namespace Verif.FermiInt

open Real MeasureTheory RatPoly

/-- `(1 / (k + 1)) ^ (1 / 2)` in units of `10 ^ -50`, rounded down. -/
def wNeg12 : List ℕ :=
  [100000000000000000000000000000000000000000000000000,
   70710678118654752440084436210484903928483593768847,
   57735026918962576450914878050195745564760175127012,
   50000000000000000000000000000000000000000000000000,
   44721359549995793928183473374625524708812367192230,
   40824829046386301636621401245098189866099124677611,
   37796447300922722721451653623418006081575131186892,
   35355339059327376220042218105242451964241796884423,
   33333333333333333333333333333333333333333333333333,
   31622776601683793319988935444327185337195551393252,
   30151134457776362264681206697006242581155350414448,
   28867513459481288225457439025097872782380087563506,
   27735009811261456100917086672849968817317665952655,
   26726124191242438468455348087975352155400141484133,
   25819888974716112567861769331882664072219478035277,
   25000000000000000000000000000000000000000000000000,
   24253562503633297351890646211612217794983524855138,
   23570226039551584146694812070161634642827864589615,
   22941573387056176590720957809787450837563178553854,
   22360679774997896964091736687312762354406183596115,
   21821789023599238126609748541561945185640269413180,
   21320071635561043429843773243383937639037401606416,
   20851441405707476267814948105055190956507421921322,
   20412414523193150818310700622549094933049562338805]

/-- `(1 / (k + 1)) ^ (3 / 2)` in units of `10 ^ -50`, rounded down. -/
def w12 : List ℕ :=
  [100000000000000000000000000000000000000000000000000,
   35355339059327376220042218105242451964241796884423,
   19245008972987525483638292683398581854920058375670,
   12500000000000000000000000000000000000000000000000,
   8944271909999158785636694674925104941762473438446,
   6804138174397716939436900207516364977683187446268,
   5399492471560388960207379089059715154510733026698,
   4419417382415922027505277263155306495530224610552,
   3703703703703703703703703703703703703703703703703,
   3162277660168379331998893544432718533719555139325,
   2741012223434214751334655154273294780105031855858,
   2405626121623440685454786585424822731865007296958,
   2133462293173958161609006667142305293639820457896,
   1909008870803031319175382006283953725385724391723,
   1721325931647740837857451288792177604814631869018,
   1562500000000000000000000000000000000000000000000,
   1426680147272546903052390953624248105587266167949,
   1309457002197310230371934003897868591268214699423,
   1207451230897693504774787253146707938819114660729,
   1118033988749894848204586834365638117720309179805,
   1039132810647582767933797549598187865982869972056,
   969094165252774701356535147426542619956245527564,
   906584408943803315991954265437182215500322692231,
   850517271799714617429612525939545622210398430783]

/-- `(1 / (k + 1)) ^ (5 / 2)` in units of `10 ^ -50`, rounded down. -/
def w32 : List ℕ :=
  [100000000000000000000000000000000000000000000000000,
   17677669529663688110021109052621225982120898442211,
   6415002990995841827879430894466193951640019458556,
   3125000000000000000000000000000000000000000000000,
   1788854381999831757127338934985020988352494687689,
   1134023029066286156572816701252727496280531241044,
   771356067365769851458197012722816450644390432385,
   552427172801990253438159657894413311941278076319,
   411522633744855967078189300411522633744855967078,
   316227766016837933199889354443271853371955513932,
   249182929403110431939514104933935889100457441441,
   200468843468620057121232215452068560988750608079,
   164112484090304473969923589780177330279986189068,
   136357776485930808512527286163139551813266027980,
   114755062109849389190496752586145173654308791267,
   97656250000000000000000000000000000000000000000,
   83922361604267464885434761977896947387486245173,
   72747611233183901687329666883214921737123038856,
   63550064784089131830251960691931996779953403196,
   55901699437494742410229341718281905886015458990,
   49482514792742036568276073790389898380136665336,
   44049734784217031879842506701206482725283887616,
   39416713432339274608345837627703574586970551836,
   35438219658321442392900521914147734258766601282]

/-- `(1 / (k + 1)) ^ (7 / 2)` in units of `10 ^ -50`, rounded down. -/
def w52 : List ℕ :=
  [100000000000000000000000000000000000000000000000000,
   8838834764831844055010554526310612991060449221105,
   2138334330331947275959810298155397983880006486185,
   781250000000000000000000000000000000000000000000,
   357770876399966351425467786997004197670498937537,
   189003838177714359428802783542121249380088540174,
   110193723909395693065456716103259492949198633197,
   69053396600248781679769957236801663992659759539,
   45724737082761774119798811156835848193872885230,
   31622776601683793319988935444327185337195551393,
   22652993582100948358137645903085080827314312858,
   16705736955718338093436017954339046749062550673,
   12624037237715728766917199213859794636922014543,
   9739841177566486322323377583081396558090430570,
   7650337473989959279366450172409678243620586084,
   6103515625000000000000000000000000000000000000,
   4936609506133380287378515410464526316910955598,
   4041533957399105649296092604623051207617946603,
   3344740251794164833171155825891157725260705431,
   2795084971874737120511467085914095294300772949,
   2356310228225811265156003513828090399054126920,
   2002260672009865085447386668236658305694722164,
   1713770149232142374275905983813198895085676166,
   1476592485763393433037521746422822260781941720]

/-! ### Accuracy of the first branch -/

/-- Positive if the approximation is not larger than the Fermi integral by more than `10 ^ -6`. -/
def upperTest (g : ℚ) (a b : List ℚ) (l : List ℕ) : List ℚ :=
  add (scale ((1 + 1 / 10 ^ 6) * g * 1.7724538509055160272 / (1 + 7 / 10 ^ 8))
    (mul b (weightedLo (invPoly 24) l))) (scale (-1) a)

/-- Positive if the approximation is not smaller than the Fermi integral by more than `10 ^ -6`. -/
def lowerTest (g : ℚ) (a b : List ℚ) (l : List ℕ) : List ℚ :=
  add a (scale (-((1 - 1 / 10 ^ 6) * g * 1.772453850905516028 / (1 - 7 / 10 ^ 8)))
    (mul b (weightedHi (invPoly 24) l)))

set_option maxRecDepth 100000 in
theorem inv_ok : InvOk 24 := by unfold InvOk; decide +kernel

set_option maxRecDepth 100000 in
theorem inv_length : (invPoly 24).length = 24 := by decide +kernel

set_option maxRecDepth 100000 in
theorem chebC_le : |chebC 24| ≤ 7 / 10 ^ 8 := by decide +kernel

theorem sqrt_pi_bounds : (1.7724538509055160272 : ℝ) ≤ √π ∧ √π ≤ 1.772453850905516028 := by
  have h1 := pi_gt_d20
  have h2 := pi_lt_d20
  constructor
  · apply Real.le_sqrt_of_sq_le; norm_num at *; linarith
  · apply Real.sqrt_le_iff.2; constructor <;> norm_num at *; linarith

theorem powerSum_eq_ev (a : List ℚ) (x : ℝ) : powerSum a x = ev a x := by
  induction a with
  | nil => simp [powerSum, ev]
  | cons b a ih =>
    rw [ev, ← ih]
    unfold powerSum
    rw [List.length_cons, List.range_succ_eq_map]
    simp only [List.map_cons, List.map_map, List.sum_cons, pow_zero, mul_one, List.getD_cons_zero,
      Function.comp_def, List.getD_cons_succ, Nat.succ_eq_add_one, pow_succ]
    rw [← List.sum_map_mul_left]
    congr 2
    apply List.map_congr_left
    intro i _; ring

theorem ev_pos_of_pos (p : List ℚ) (hne : p ≠ []) (h : ∀ q ∈ p, 0 < q) (t : ℝ) (ht : 0 ≤ t) :
    0 < ev p t := by
  have nonneg : ∀ p : List ℚ, (∀ q ∈ p, 0 < q) → 0 ≤ ev p t := by
    intro p
    induction p with
    | nil => intro _; simp [ev]
    | cons a p ih =>
      intro h
      have ha : (0 : ℝ) < a := by exact_mod_cast h a (by simp)
      have := ih fun q hq => h q (by simp [hq])
      simp only [ev]; positivity
  cases p with
  | nil => exact absurd rfl hne
  | cons a p =>
    have ha : (0 : ℝ) < a := by exact_mod_cast h a (by simp)
    have := nonneg p fun q hq => h q (by simp [hq])
    simp only [ev]; positivity

/-- The tests imply a relative error below `10 ^ -6`. -/
theorem accurate_of_tests (a b : List ℚ) (n : ℝ) (m : ℕ) (g : ℚ) (l : List ℕ) (M S K : ℕ)
    (hn1 : -1 < n) (hn : n + 1 = m / 2) (hg : Gamma (n + 1) = g * √π) (hg0 : 0 < g)
    (hl : l.length = 24) (hw : weightsOk m 0 l = true) (hM : 0 < M)
    (hMK : (M : ℝ) * (37 / 5) < K) (h1 : check K (toInt M S (upperTest g a b l)) = true)
    (h2 : check K (toInt M S (lowerTest g a b l)) = true)
    (hb : b ≠ [] ∧ ∀ q ∈ b, 0 < q) (x : ℝ) (hx : exp x ≤ 37 / 5) :
    |exp x * rational a b (exp x) / Gamma (n + 1) - fermiIntegral x n| ≤
      1 / 10 ^ 6 * fermiIntegral x n := by
  have ht := exp_pos x
  have hF := fermiIntegral_pos n hn1 x
  have key := series_bounds n hn1 24 inv_ok x hx
  obtain ⟨w1, w2⟩ := weighted_bounds m n hn (exp x) ht.le (invPoly 24) 0 l (hl.trans inv_length.symm) hw
  have hc : |(chebC 24 : ℝ)| ≤ 7 / 10 ^ 8 := by
    have h : ((|chebC 24| : ℚ) : ℝ) ≤ ((7 / 10 ^ 8 : ℚ) : ℝ) := Rat.cast_le.2 chebC_le
    push_cast at h
    exact h
  have hMx : (M : ℝ) * exp x < K :=
    (mul_le_mul_of_nonneg_left hx (by positivity : (0 : ℝ) ≤ M)).trans_lt hMK
  have p1 := ev_pos M S K hM _ h1 (exp x) ht.le hMx
  have p2 := ev_pos M S K hM _ h2 (exp x) ht.le hMx
  have pb := ev_pos_of_pos b hb.1 hb.2 (exp x) ht.le
  obtain ⟨s1, s2⟩ := sqrt_pi_bounds
  rw [hg]
  unfold rational
  rw [powerSum_eq_ev, powerSum_eq_ev]
  simp only [upperTest, lowerTest, ev_add, ev_scale, ev_mul] at p1 p2
  have hg' : (0 : ℝ) < g := by exact_mod_cast hg0
  push_cast at p1 p2
  generalize exp x = t at *
  generalize fermiIntegral x n = Fx at *
  generalize weighted n 0 (invPoly 24) t = W at *
  generalize ev (weightedLo (invPoly 24) l) t = lo at *
  generalize ev (weightedHi (invPoly 24) l) t = hi at *
  generalize ev a t = A at *
  generalize ev b t = B at *
  generalize |(chebC 24 : ℝ)| = c at *
  generalize √π = s at *
  generalize (g : ℝ) = γ at *
  obtain ⟨k1, k2⟩ := abs_le.1 key
  have hs : 0 < s := by norm_num at s1; linarith
  have hden : 0 < B * (γ * s) := by positivity
  have e : t * (A / B) / (γ * s) = t * A / (B * (γ * s)) := by
    rw [mul_div_assoc', div_div]
  rw [e, abs_le]
  have hW1 : t * W ≤ (1 + 7 / 10 ^ 8) * Fx := by nlinarith
  have hW2 : (1 - 7 / 10 ^ 8) * Fx ≤ t * W := by nlinarith
  have hWpos : 0 < W := by
    by_contra hc'
    push Not at hc'
    have : t * W ≤ 0 := mul_nonpos_of_nonneg_of_nonpos ht.le hc'
    norm_num at hW2
    linarith
  have hBW : 0 < B * γ * W := by positivity
  constructor
  · -- lower
    have q1 : (1 - 1 / 10 ^ 6) / (1 - 7 / 10 ^ 8) * (B * (γ * s)) * W ≤ A := by
      have a1 : B * γ * s * W ≤ B * γ * 1.772453850905516028 * hi := by
        have : B * γ * s ≤ B * γ * 1.772453850905516028 :=
          mul_le_mul_of_nonneg_left s2 (by positivity)
        exact mul_le_mul this w2 hWpos.le (by positivity)
      norm_num at p2 a1 ⊢
      nlinarith
    have q2 : (1 - 1 / 10 ^ 6) * Fx ≤ t * A / (B * (γ * s)) := by
      rw [le_div_iff₀ hden]
      have a2 := mul_le_mul_of_nonneg_left q1 ht.le
      have a3 := mul_le_mul_of_nonneg_left hW2
        (by norm_num; positivity : (0 : ℝ) ≤ (1 - 1 / 10 ^ 6) / (1 - 7 / 10 ^ 8) * (B * (γ * s)))
      have a4 : (1 - 1 / 10 ^ 6) / (1 - 7 / 10 ^ 8) * (B * (γ * s)) * ((1 - 7 / 10 ^ 8) * Fx) =
          (1 - 1 / 10 ^ 6) * Fx * (B * (γ * s)) := by norm_num; ring
      linarith
    linarith
  · have q1 : A ≤ (1 + 1 / 10 ^ 6) / (1 + 7 / 10 ^ 8) * (B * (γ * s)) * W := by
      have a1 : B * γ * 1.7724538509055160272 * lo ≤ B * γ * s * W := by
        have a0 : B * γ * 1.7724538509055160272 * lo ≤ B * γ * 1.7724538509055160272 * W :=
          mul_le_mul_of_nonneg_left w1 (by positivity)
        have : B * γ * 1.7724538509055160272 ≤ B * γ * s :=
          mul_le_mul_of_nonneg_left s1 (by positivity)
        exact a0.trans (mul_le_mul_of_nonneg_right this hWpos.le)
      norm_num at p1 a1 ⊢
      nlinarith
    have q2 : t * A / (B * (γ * s)) ≤ (1 + 1 / 10 ^ 6) * Fx := by
      rw [div_le_iff₀ hden]
      have a2 := mul_le_mul_of_nonneg_left q1 ht.le
      have a3 := mul_le_mul_of_nonneg_left hW1
        (by norm_num; positivity : (0 : ℝ) ≤ (1 + 1 / 10 ^ 6) / (1 + 7 / 10 ^ 8) * (B * (γ * s)))
      have a4 : (1 + 1 / 10 ^ 6) / (1 + 7 / 10 ^ 8) * (B * (γ * s)) * ((1 + 7 / 10 ^ 8) * Fx) =
          (1 + 1 / 10 ^ 6) * Fx * (B * (γ * s)) := by norm_num; ring
      linarith
    linarith

theorem Gamma_neg12 : Gamma (-1 / 2 + 1) = ((1 : ℚ) : ℝ) * √π := by
  rw [show (-1 / 2 + 1 : ℝ) = 1 / 2 by norm_num, Gamma_one_half_eq]; simp

theorem Gamma_12 : Gamma (1 / 2 + 1) = ((1 / 2 : ℚ) : ℝ) * √π := by
  rw [Gamma_add_one (by norm_num), Gamma_one_half_eq]; norm_num

theorem Gamma_32 : Gamma (3 / 2 + 1) = ((3 / 4 : ℚ) : ℝ) * √π := by
  rw [Gamma_add_one (by norm_num), show (3 / 2 : ℝ) = 1 / 2 + 1 by norm_num, Gamma_12]
  push_cast; ring

theorem Gamma_52 : Gamma (5 / 2 + 1) = ((15 / 8 : ℚ) : ℝ) * √π := by
  rw [Gamma_add_one (by norm_num), show (5 / 2 : ℝ) = 3 / 2 + 1 by norm_num, Gamma_32]
  push_cast; ring

/-- The coefficients `b` for the order 3/2 with the last exponent that was meant. -/
def b32Repaired : List ℚ := c32.b.dropLast ++ [1.99507945223266e-2]

set_option maxRecDepth 100000 in
theorem accurate12 (x : ℝ) (hx : exp x ≤ 37 / 5) :
    |exp x * rational c12.a c12.b (exp x) / Gamma (1 / 2 + 1) - fermiIntegral x (1 / 2)| ≤
      1 / 10 ^ 6 * fermiIntegral x (1 / 2) :=
  accurate_of_tests c12.a c12.b (1 / 2) 3 (1 / 2) w12 9 (3 ^ 130) 67 (by norm_num) (by norm_num) Gamma_12
    (by norm_num) rfl (by decide +kernel) (by norm_num) (by norm_num) (by decide +kernel)
    (by decide +kernel) (by decide +kernel) x hx

set_option maxRecDepth 100000 in
theorem accurateNeg12 (x : ℝ) (hx : exp x ≤ 37 / 5) :
    |exp x * rational cm12.a cm12.b (exp x) / Gamma (-1 / 2 + 1) - fermiIntegral x (-1 / 2)| ≤
      1 / 10 ^ 6 * fermiIntegral x (-1 / 2) :=
  accurate_of_tests cm12.a cm12.b (-1 / 2) 1 1 wNeg12 17 (3 ^ 130) 126 (by norm_num) (by norm_num)
    Gamma_neg12 (by norm_num) rfl (by decide +kernel) (by norm_num) (by norm_num) (by decide +kernel)
    (by decide +kernel) (by decide +kernel) x hx

set_option maxRecDepth 100000 in
theorem accurate32 (x : ℝ) (hx : exp x ≤ 37 / 5) :
    |exp x * rational c32.a b32Repaired (exp x) / Gamma (3 / 2 + 1) - fermiIntegral x (3 / 2)| ≤
      1 / 10 ^ 6 * fermiIntegral x (3 / 2) :=
  accurate_of_tests c32.a b32Repaired (3 / 2) 5 (3 / 4) w32 5 (3 ^ 130) 38 (by norm_num) (by norm_num)
    Gamma_32 (by norm_num) rfl (by decide +kernel) (by norm_num) (by norm_num) (by decide +kernel)
    (by decide +kernel) (by decide +kernel) x hx

set_option maxRecDepth 100000 in
theorem accurate52 (x : ℝ) (hx : exp x ≤ 37 / 5) :
    |exp x * rational c52.a c52.b (exp x) / Gamma (5 / 2 + 1) - fermiIntegral x (5 / 2)| ≤
      1 / 10 ^ 6 * fermiIntegral x (5 / 2) :=
  accurate_of_tests c52.a c52.b (5 / 2) 7 (15 / 8) w52 5 (3 ^ 130) 38 (by norm_num) (by norm_num)
    Gamma_52 (by norm_num) rfl (by decide +kernel) (by norm_num) (by norm_num) (by decide +kernel)
    (by decide +kernel) (by decide +kernel) x hx

end Verif.FermiInt
