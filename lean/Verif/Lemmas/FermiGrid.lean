/-
Helpers for C79: the values of the approximate inverse on a grid, in natural numbers, and a test of them.
The operations are written out so that the kernel evaluates them directly.
-/
import Verif.Lemmas.RatPoly

set_option autoImplicit false

namespace Verif.FermiInt
open Verif.RatPoly

@[inherit_doc] local infixl:70 " *ₙ " => Nat.mul
@[inherit_doc] local infixl:65 " +ₙ " => Nat.add

/-- The denominator of all nodes, a power of three so that no number is a multiple of `2 ^ 64`. -/
def gS : ℕ := 205891132094649

def gS2 : ℕ := 42391158275216203514294433201

def gS3 : ℕ := 8727963568087712425891397479476727340041449

/-- The polynomials of the approximation below two in homogeneous form, times `10 ^ 13`. -/
def aH (p q : ℕ) : ℕ :=
  ((((((10000000000000 *ₙ p +ₙ 7772386785396480 *ₙ q) *ₙ p +ₙ 416031909245777000 *ₙ Nat.pow q 2) *ₙ p +ₙ
  6424932337156400000 *ₙ Nat.pow q 3) *ₙ p +ₙ 39353642189301400000 *ₙ Nat.pow q 4) *ₙ p +ₙ
  107608632249013000000 *ₙ Nat.pow q 5) *ₙ p +ₙ 130964880355883000000 *ₙ Nat.pow q 6) *ₙ p +ₙ
  57583415299546500000 *ₙ Nat.pow q 7

def bH (p q : ℕ) : ℕ :=
  ((((((902129136642157 *ₙ p +ₙ 81792210664454700 *ₙ q) *ₙ p +ₙ 1951559483268320000 *ₙ Nat.pow q 2) *ₙ p +ₙ
  18316742455450500000 *ₙ Nat.pow q 3) *ₙ p +ₙ 79519264775608600000 *ₙ Nat.pow q 4) *ₙ p +ₙ
  169288134856160000000 *ₙ Nat.pow q 5) *ₙ p +ₙ 170750501625775000000 *ₙ Nat.pow q 6) *ₙ p +ₙ
  64975926194226900000 *ₙ Nat.pow q 7

/-- The polynomials above two in homogeneous form, times `10 ^ 28`. -/
def cH (p q : ℕ) : ℕ :=
  (((((((((10000000000000000000000000000 *ₙ p +ₙ 19124752877967600000000000000 *ₙ q) *ₙ p +ₙ
  10803786192148800000000000000 *ₙ Nat.pow q 2) *ₙ p +ₙ 2486532162662270000000000000 *ₙ Nat.pow q 3) *ₙ p
  +ₙ 260768398973913000000000000 *ₙ Nat.pow q 4) *ₙ p +ₙ 13221299593779600000000000 *ₙ Nat.pow q 5) *ₙ p +ₙ
  340679845803144000000000 *ₙ Nat.pow q 6) *ₙ p +ₙ 4692338839006440000000 *ₙ Nat.pow q 7) *ₙ p +ₙ
  37679494227780600000 *ₙ Nat.pow q 8) *ₙ p +ₙ 164429113030738000 *ₙ Nat.pow q 9) *ₙ p +ₙ 485378381173415
  *ₙ Nat.pow q 10

def dH (p q : ℕ) : ℕ :=
  ((((((((((Nat.sub (2013118369759300000000000000 *ₙ q) (214562434782759000000000000 *ₙ p)) *ₙ p +ₙ
  13498124406054900000000000000 *ₙ Nat.pow q 2) *ₙ p +ₙ 11643487120013100000000000000 *ₙ Nat.pow q 3) *ₙ p
  +ₙ 3240952264864680000000000000 *ₙ Nat.pow q 4) *ₙ p +ₙ 366887808002874000000000000 *ₙ Nat.pow q 5) *ₙ p
  +ₙ 19204013675659200000000000 *ₙ Nat.pow q 6) *ₙ p +ₙ 502360015186394000000000 *ₙ Nat.pow q 7) *ₙ p +ₙ
  6968886345496490000000 *ₙ Nat.pow q 8) *ₙ p +ₙ 56215289437527700000 *ₙ Nat.pow q 9) *ₙ p +ₙ
  245745452167585000 *ₙ Nat.pow q 10) *ₙ p +ₙ 728067571760518 *ₙ Nat.pow q 11

/-- The first fifteen terms of the exponential function times `15!`. -/
def eH (p q : ℕ) : ℕ :=
  (((((((((((((15 *ₙ p +ₙ 210 *ₙ q) *ₙ p +ₙ 2730 *ₙ Nat.pow q 2) *ₙ p +ₙ 32760 *ₙ Nat.pow q 3) *ₙ p +ₙ
  360360 *ₙ Nat.pow q 4) *ₙ p +ₙ 3603600 *ₙ Nat.pow q 5) *ₙ p +ₙ 32432400 *ₙ Nat.pow q 6) *ₙ p +ₙ 259459200
  *ₙ Nat.pow q 7) *ₙ p +ₙ 1816214400 *ₙ Nat.pow q 8) *ₙ p +ₙ 10897286400 *ₙ Nat.pow q 9) *ₙ p +ₙ
  54486432000 *ₙ Nat.pow q 10) *ₙ p +ₙ 217945728000 *ₙ Nat.pow q 11) *ₙ p +ₙ 653837184000 *ₙ Nat.pow q 12)
  *ₙ p +ₙ 1307674368000 *ₙ Nat.pow q 13) *ₙ p +ₙ 1307674368000 *ₙ Nat.pow q 14

/-- `(2 gS) ^ 14` and this times `15!`. -/
def eP : ℕ :=
  4030388598190964358330656905638660250678619953600279391971586802611719350222632643378721417330663531099077914492396831584595830214574010724478635516017068079671173836216675446002249751044445199533218217984

def eD : ℕ :=
  5270435862933775260590567304105870679672885918936434678519869046062420850695751801226438914055939680050635057216603067547588790811278373863357821827909973378296975894092776574912110069775202216210235028208313434112000

/-- The test of the exact integral at `A / gS` against `X / U`, from two on. -/
def highLow (A X U : ℕ) : Bool :=
  Nat.ble (9999997400000169 *ₙ (X *ₙ X) *ₙ Nat.pow (dH gS2 (A *ₙ A)) 2 *ₙ gS3)
    (10000000000000000 *ₙ Nat.pow A 7 *ₙ Nat.pow (cH gS2 (A *ₙ A)) 2 *ₙ (U *ₙ U))

def highUp (A X U : ℕ) : Bool :=
  Nat.ble (10000000000000000 *ₙ Nat.pow A 7 *ₙ Nat.pow (cH gS2 (A *ₙ A)) 2 *ₙ (U *ₙ U))
    (10000002600000169 *ₙ (X *ₙ X) *ₙ Nat.pow (dH gS2 (A *ₙ A)) 2 *ₙ gS3)

/-- The same below two, with a lower bound `b / gS` of the exponential function of half of the number. -/
def lowLow (b X U : ℕ) : Bool :=
  Nat.ble (99999987 *ₙ X *ₙ (gS2 *ₙ bH (b *ₙ b) gS2)) (100000000 *ₙ U *ₙ (b *ₙ b *ₙ aH (b *ₙ b) gS2))

def lowUp (b X U : ℕ) : Bool :=
  Nat.ble (100000000 *ₙ U *ₙ (b *ₙ b *ₙ aH (b *ₙ b) gS2)) (100000013 *ₙ X *ₙ (gS2 *ₙ bH (b *ₙ b) gS2))

/-- Bounds of the exponential function of `A / (2 gS)`, times `gS`. -/
def expLow (A : ℕ) : ℕ := Nat.sub (2 *ₙ Nat.div (Nat.div (eH A (2 *ₙ gS) *ₙ gS) eD) 2) 1

def expUp (A : ℕ) : ℕ := 2 *ₙ Nat.div (Nat.div (eH A (2 *ₙ gS) *ₙ gS) eD) 2 +ₙ 2001

/-- The test of a number of the grid. -/
def nodeTest (A X U : ℕ) : Bool :=
  (Nat.ble (2 *ₙ gS) A).rec
    (Nat.ble 1 A && Nat.ble (A +ₙ 2) (2 *ₙ gS) &&
      forceNat (expLow A) (fun b => Nat.ble 1 b && Nat.ble (b *ₙ eD) (eH A (2 *ₙ gS) *ₙ gS) && lowLow b X U) &&
      forceNat (expUp (A +ₙ 2)) (fun b =>
        Nat.ble ((eH (A +ₙ 2) (2 *ₙ gS) +ₙ 2 *ₙ eP) *ₙ gS) (b *ₙ eD) && Nat.ble (5 *ₙ (b *ₙ b)) (37 *ₙ gS2) &&
        lowUp b X U))
    (highLow A X U && highUp (A +ₙ 2) X U)

/-- A piece of the approximate inverse: the quotient of two cubic polynomials of
`be / Q * x - al / Q`; the grid has the arguments `X / U`, `dX / U` apart. -/
structure Grid where
  n : ℕ × ℕ × ℕ × ℕ
  d : ℕ × ℕ × ℕ × ℕ
  al : ℕ
  be : ℕ
  Q : ℕ
  U : ℕ
  dX : ℕ

/-- A cubic polynomial in homogeneous form. -/
def cubic (c : ℕ × ℕ × ℕ × ℕ) (p q : ℕ) : ℕ :=
  ((c.2.2.2 *ₙ p +ₙ c.2.2.1 *ₙ q) *ₙ p +ₙ c.2.1 *ₙ Nat.pow q 2) *ₙ p +ₙ c.1 *ₙ Nat.pow q 3

/-- The value of the piece at `X / U` lies between `A / gS` and `(A + 2) / gS`, and `A` passes the test. -/
def node (g : Grid) (X : ℕ) (f : ℕ → Bool) : Bool :=
  forceNat (g.be *ₙ X) fun B =>
  forceNat (Nat.sub B (g.al *ₙ g.U)) fun T =>
  forceNat (g.Q *ₙ g.U) fun q =>
  forceNat (cubic g.n T q) fun N =>
  forceNat (cubic g.d T q) fun D =>
  forceNat (2 *ₙ Nat.div (Nat.sub (N *ₙ gS) D) (2 *ₙ D) +ₙ 1) fun A =>
  Nat.ble (g.al *ₙ g.U) B && Nat.ble 1 D && Nat.ble (A *ₙ D) (N *ₙ gS) && Nat.ble (N *ₙ gS) ((A +ₙ 2) *ₙ D) &&
    nodeTest A X g.U && f A

/-- All numbers of the grid from `X` on, with the tests of the second differences. -/
def runGrid (g : Grid) : ℕ → ℕ → ℕ → ℕ → Bool
  | 0, _, _, _ => true
  | n + 1, X, p, c =>
    forceNat (X +ₙ g.dX) fun X' => node g X' fun A =>
      Nat.ble ((2 *ₙ c +ₙ 4) *ₙ g.dX *ₙ 10000000 +ₙ 8 *ₙ X *ₙ (c +ₙ 2))
        (8 *ₙ X *ₙ A +ₙ (p +ₙ A) *ₙ g.dX *ₙ 10000000) &&
      Nat.ble (p +ₙ 3) c && Nat.ble (c +ₙ 3) A && Nat.ble (X +ₙ X') (7000 *ₙ g.dX) && runGrid g n X' c A

/-- The whole grid, which begins one step before `X₀`. -/
def gridTest (g : Grid) (n X₀ : ℕ) : Bool :=
  node g (Nat.sub X₀ g.dX) fun p => node g X₀ fun c => runGrid g n X₀ p c

def grid1 : Grid where
  n := (211044637795292, 1197963497012400, 1341067738760000, 305460708000000)
  d := (274598297127400, 594071996520000, 278329074000000, 10000000000000)
  al := 540848552
  be := 452114610
  Q := 1000000000
  U := 10000
  dX := 13

def grid2 : Grid where
  n := (710991873347263, 2885028191221100, 2922844337890000, 649306737000000)
  d := (272549191841000, 615229727800000, 270848810000000, 10000000000000)
  al := 472411581
  be := 140636120
  Q := 1000000000
  U := 10000
  dX := 35

def grid3 : Grid where
  n := (1504918852588140, 5993834931058000, 6351757144200000, 1452386860000000)
  d := (248116488750500, 587641851900000, 269557305000000, 10000000000000)
  al := 4328395710
  be := 420121106
  Q := 10000000000
  U := 1000
  dX := 14

def grid4 : Grid where
  n := (3619358580756170, 14202833871149000, 14774633085100000, 3337223830000000)
  d := (266884975276600, 605580527680000, 271544466000000, 10000000000000)
  al := 4064480710
  be := 121259929
  Q := 10000000000
  U := 100
  dX := 5

set_option maxRecDepth 100000 in
theorem grid1_test : gridTest grid1 1700 12200 = true := by decide +kernel

set_option maxRecDepth 100000 in
theorem grid2_test : gridTest grid2 2020 34300 = true := by decide +kernel

set_option maxRecDepth 100000 in
theorem grid3_test : gridTest grid3 1700 10500 = true := by decide +kernel

set_option maxRecDepth 100000 in
theorem grid4_test : gridTest grid4 1654 3430 = true := by decide +kernel

end Verif.FermiInt
