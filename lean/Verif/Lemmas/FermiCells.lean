/-
The Fermi integral of order -1/2 above an argument of two: the square roots of `FermiTail` are replaced by
polynomials on seven intervals, and the sum is compared with the approximation of the code.  The centres and
half widths of the intervals are odd multiples of 1/10000: the kernel is slow with numbers that are multiples of
a high power of two.
-/
import Verif.Lemmas.FermiTail
import Verif.Lemmas.FermiDeriv
import Verif.Lemmas.FermiCert

set_option autoImplicit false

namespace Verif.FermiInt

open Verif.RatPoly Complex

/-! ### Polynomials with integer coefficients -/

/-- Multiple of a polynomial. -/
def scaleZ (c : ℤ) : List ℤ → List ℤ
  | [] => []
  | a :: p => forceInt (c * a) fun b => b :: scaleZ c p

theorem evZ_scaleZ (c : ℤ) (p : List ℤ) (x : ℝ) : evZ (scaleZ c p) x = c * evZ p x := by
  induction p with
  | nil => simp [scaleZ, evZ]
  | cons a p ih => simp only [scaleZ, forceInt_eq, evZ, ih]; push_cast; ring

/-- Product of polynomials. -/
def mulZ : List ℤ → List ℤ → List ℤ
  | [], _ => []
  | a :: p, q => forceListZ (mulZ p q) fun r => addZ (scaleZ a q) (0 :: r)

theorem evZ_mulZ (p q : List ℤ) (x : ℝ) : evZ (mulZ p q) x = evZ p x * evZ q x := by
  induction p with
  | nil => simp [mulZ, evZ]
  | cons a p ih => simp only [mulZ, forceListZ_eq, evZ_addZ, evZ_scaleZ, evZ, ih]; push_cast; ring

/-- `q ^ (length - 1) p (r / q)`. -/
def homZ (r : List ℤ) (q : ℤ) : List ℤ → List ℤ
  | [] => []
  | a :: p => addZ [a * q ^ p.length] (mulZ r (homZ r q p))

theorem evZ_homZ (r : List ℤ) (q : ℤ) (hq : q ≠ 0) (p : List ℤ) (x : ℝ) :
    evZ (homZ r q p) x * q = q ^ p.length * evZ p (evZ r x / q) := by
  have hq' : (q : ℝ) ≠ 0 := by exact_mod_cast hq
  induction p with
  | nil => simp [homZ, evZ]
  | cons a p ih =>
    simp only [homZ, evZ_addZ, evZ_mulZ, evZ, List.length_cons]
    push_cast
    rw [add_mul, mul_assoc (evZ r x), ih, pow_succ]
    field_simp
    ring

/-- The sum of the absolute values of the coefficients. -/
def absSum : List ℤ → ℤ
  | [] => 0
  | a :: p => forceInt (absSum p) fun c => |a| + c

theorem absSum_nonneg (p : List ℤ) : 0 ≤ absSum p := by
  induction p with
  | nil => simp [absSum]
  | cons a p ih => simp only [absSum, forceInt_eq]; positivity

theorem abs_ev_le (p : List ℤ) (y : ℝ) (hy : |y| ≤ 1) : |evZ p y| ≤ absSum p := by
  induction p with
  | nil => simp [absSum, evZ]
  | cons a p ih =>
    simp only [absSum, forceInt_eq, evZ]
    push_cast
    refine (abs_add_le _ _).trans (add_le_add le_rfl ?_)
    rw [abs_mul]
    have h0 : (0 : ℝ) ≤ absSum p := by exact_mod_cast absSum_nonneg p
    have := abs_nonneg (evZ p y)
    nlinarith [abs_nonneg y]

/-- A polynomial between `-e` and `e`, for arguments between -1 and 1. -/
def within (e : ℤ) (p : List ℤ) : Bool := decide (absSum p ≤ e)

theorem within_abs (e : ℤ) (p : List ℤ) (h : within e p = true) (y : ℝ) (hy : |y| ≤ 1) : |evZ p y| ≤ e := by
  have h1 : absSum p ≤ e := by simpa [within] using h
  exact (abs_ev_le p y hy).trans (by exact_mod_cast h1)

/-- A polynomial with a large first coefficient. -/
def posOk : List ℤ → Bool
  | [] => false
  | a :: p => decide (absSum p < a)

theorem posOk_pos (p : List ℤ) (h : posOk p = true) (y : ℝ) (hy : |y| ≤ 1) : 0 < evZ p y := by
  cases p with
  | nil => simp [posOk] at h
  | cons a p =>
    have h1 : absSum p < a := by simpa [posOk] using h
    have h2 : (absSum p : ℝ) < a := by exact_mod_cast h1
    have h3 := abs_ev_le p y hy
    have h4 : |y * evZ p y| ≤ absSum p := by
      rw [abs_mul]
      nlinarith [abs_nonneg y, abs_nonneg (evZ p y)]
    have := neg_abs_le (y * evZ p y)
    simp only [evZ]
    linarith

/-- `(1 + s) ^ n p ((a + b s) / (1 + s))` with a large enough `n`, and the power of `1 + s`. -/
def bern (a b : ℤ) : List ℤ → List ℤ × List ℤ
  | [] => ([], [1])
  | c :: p =>
    match bern a b p with
    | (h, w) => forceListZ h fun h => forceListZ w fun w =>
      (addZ (scaleZ c w) (addZ (scaleZ a h) (0 :: scaleZ b h)), addZ w (0 :: w))

theorem bern_eq (a b : ℤ) (p : List ℤ) (s : ℝ) (hs : 0 ≤ s) :
    evZ (bern a b p).2 s = (1 + s) ^ p.length ∧
      evZ (bern a b p).1 s * (1 + s) = (1 + s) ^ p.length * evZ p ((a + b * s) / (1 + s)) := by
  have h1 : (1 + s) ≠ 0 := by positivity
  induction p with
  | nil => simp [bern, evZ]
  | cons c p ih =>
    obtain ⟨i1, i2⟩ := ih
    simp only [bern, forceListZ_eq, evZ_addZ, evZ_scaleZ, evZ, List.length_cons, i1]
    constructor
    · push_cast; ring
    · rw [show (c * (1 + s) ^ p.length + (a * evZ (bern a b p).1 s + (((0 : ℤ) : ℝ) + s * (b * evZ (bern a b p).1 s)))) * (1 + s)
        = c * (1 + s) ^ p.length * (1 + s) + (a + b * s) * (evZ (bern a b p).1 s * (1 + s)) by push_cast; ring, i2]
      field_simp
      ring

/-- All coefficients are positive. -/
def allPos : List ℤ → Bool
  | [] => true
  | a :: p => decide (0 < a) && allPos p

theorem allPos_nonneg (p : List ℤ) (h : allPos p = true) (s : ℝ) (hs : 0 ≤ s) : 0 ≤ evZ p s := by
  induction p with
  | nil => simp [evZ]
  | cons a p ih =>
    simp only [allPos, Bool.and_eq_true, decide_eq_true_eq] at h
    have h1 : (0 : ℝ) < a := by exact_mod_cast h.1
    have := ih h.2
    simp only [evZ]
    positivity

/-- The transformed polynomial is not empty and has positive coefficients only. -/
def posOn (a b : ℤ) (p : List ℤ) : Bool :=
  match (bern a b p).1 with
  | [] => false
  | c :: q => decide (0 < c) && allPos q

theorem posOn_pos (a b : ℤ) (p : List ℤ) (h : posOn a b p = true) (s : ℝ) (hs : 0 ≤ s) :
    0 < evZ p ((a + b * s) / (1 + s)) := by
  have h1 : 0 < evZ (bern a b p).1 s := by
    unfold posOn at h
    split at h
    · simp at h
    · rename_i c q e
      simp only [Bool.and_eq_true, decide_eq_true_eq] at h
      have h1 : (0 : ℝ) < c := by exact_mod_cast h.1
      have := allPos_nonneg q h.2 s hs
      rw [e]
      simp only [evZ]
      positivity
  have h2 := (bern_eq a b p s hs).2
  have h3 : 0 < (1 + s) ^ p.length * evZ p ((a + b * s) / (1 + s)) := by rw [← h2]; positivity
  exact (mul_pos_iff_of_pos_left (by positivity)).1 h3

/-- A polynomial that passes the test is positive between -1 and 1. -/
def test (p : List ℤ) : Bool :=
  forceListZ p fun p => decide (0 < p.headD 0) && (posOn (-1) 0 p && posOn 1 0 p)

theorem test_pos (p : List ℤ) (h : test p = true) (y : ℝ) (hy : |y| ≤ 1) : 0 < evZ p y := by
  unfold test at h
  rw [forceListZ_eq, Bool.and_eq_true, Bool.and_eq_true, decide_eq_true_eq] at h
  have key : ∀ a : ℤ, |(a : ℝ)| = 1 → posOn a 0 p = true → 0 < a * y → 0 < evZ p y := by
    intro a ha hp hay
    have hy1 : a * y ≤ 1 := (le_abs_self _).trans (by rw [abs_mul, ha, one_mul]; exact hy)
    have ha2 : (a : ℝ) * a = 1 := by rw [← abs_mul_abs_self, ha, one_mul]
    have hy0 : y ≠ 0 := by rintro rfl; simp at hay
    have := posOn_pos a 0 p hp (1 / (a * y) - 1) (by rw [sub_nonneg, le_div_iff₀ hay]; linarith)
    convert this using 2
    have ha0 : (a : ℝ) ≠ 0 := by rintro h; rw [h] at hay; simp at hay
    push_cast
    field_simp
    linear_combination -y * ha2
  rcases lt_trichotomy y 0 with h0 | h0 | h0
  · exact key (-1) (by norm_num) h.2.1 (by push_cast; linarith)
  · cases p with
    | nil => simp at h
    | cons c p =>
      have := h.1
      simp only [List.headD_cons] at this
      rw [h0]
      simpa [evZ] using this
  · exact key 1 (by norm_num) h.2.2 (by push_cast; linarith)

/-! ### Polynomials for the inverse square roots -/

/-- Real and imaginary part of a polynomial, in units of `10 ^ -12`. -/
abbrev Pair := List ℤ × List ℤ

/-- The real part of the square of `P + i Q`. -/
def reSq (r : Pair) : List ℤ := addZ (mulZ r.1 r.1) (scaleZ (-1) (mulZ r.2 r.2))

/-- Real part of `(P + i Q)^2 (1 + i m L) - 1` in units of `10 ^ -28`; `L` is given in units of `10 ^ -4`. -/
def uPoly (m : ℕ) (L : List ℤ) (r : Pair) : List ℤ :=
  addZ (scaleZ (10 ^ 4) (reSq r)) (addZ (scaleZ (-2 * m) (mulZ L (mulZ r.1 r.2))) [-10 ^ 28])

/-- Imaginary part of `(P + i Q)^2 (1 + i m L)` in units of `10 ^ -28`. -/
def vPoly (m : ℕ) (L : List ℤ) (r : Pair) : List ℤ :=
  addZ (scaleZ (2 * 10 ^ 4) (mulZ r.1 r.2)) (scaleZ m (mulZ L (reSq r)))

/-- `P + i Q` is close to a square root of `1 / (1 + i m L)`. -/
def rootOk (L : List ℤ) (m : ℕ) (r : Pair) : Bool :=
  posOk r.1 && (within (10 ^ 19) (uPoly m L r) && within (10 ^ 19) (vPoly m L r))

/-- The value of a pair of polynomials. -/
noncomputable def evC (r : Pair) (y : ℝ) : ℂ := (evZ r.1 y / 10 ^ 12 : ℝ) + (evZ r.2 y / 10 ^ 12 : ℝ) * I

/-- A square root of `1 / w` in the right half plane. -/
structure IsInvRoot (w s : ℂ) : Prop where
  sq : s ^ 2 * w = 1
  re_pos : 0 < s.re

theorem norm_w (a : ℝ) : 1 ≤ ‖(1 + a * I : ℂ)‖ := by
  have := Complex.abs_re_le_norm (1 + a * I : ℂ)
  simpa using this

theorem root_near (L : List ℤ) (m : ℕ) (r : Pair) (h : rootOk L m r = true) (y : ℝ) (hy : |y| ≤ 1)
    (s : ℂ) (hs : IsInvRoot (1 + (m * (evZ L y / 10 ^ 4) : ℝ) * I) s) : ‖evC r y - s‖ ≤ 3 / 10 ^ 9 := by
  unfold rootOk at h
  rw [Bool.and_eq_true, Bool.and_eq_true] at h
  have hP := posOk_pos _ h.1 y hy
  have hU := within_abs _ _ h.2.1 y hy
  have hV := within_abs _ _ h.2.2 y hy
  simp only [uPoly, vPoly, reSq, evZ_addZ, evZ_scaleZ, evZ_mulZ, evZ] at hU hV
  push_cast at hU hV
  obtain ⟨a, ha⟩ : ∃ a : ℝ, a = m * (evZ L y / 10 ^ 4) := ⟨_, rfl⟩
  obtain ⟨p, hp⟩ : ∃ p : ℝ, p = evZ r.1 y / 10 ^ 12 := ⟨_, rfl⟩
  obtain ⟨q, hq⟩ : ∃ q : ℝ, q = evZ r.2 y / 10 ^ 12 := ⟨_, rfl⟩
  have hp0 : 0 < p := by rw [hp]; positivity
  rw [show evC r y = p + q * I by rw [hp, hq]; rfl]
  rw [← ha] at hs
  rw [show evZ r.1 y = 10 ^ 12 * p by rw [hp]; ring, show evZ r.2 y = 10 ^ 12 * q by rw [hq]; ring] at hU hV
  have hU' : |p ^ 2 - q ^ 2 - 2 * a * (p * q) - 1| ≤ 1 / 10 ^ 9 := by
    have e : p ^ 2 - q ^ 2 - 2 * a * (p * q) - 1 = (10 ^ 4 * (10 ^ 12 * p * (10 ^ 12 * p) + -1 * (10 ^ 12 * q * (10 ^ 12 * q))) +
        (-2 * m * (evZ L y * (10 ^ 12 * p * (10 ^ 12 * q))) + (-10 ^ 28 + y * 0))) / 10 ^ 28 := by rw [ha]; ring
    rw [e, abs_div, abs_of_pos (by norm_num : (0 : ℝ) < 10 ^ 28), div_le_div_iff₀ (by norm_num) (by norm_num)]
    norm_num at hU ⊢
    linarith
  have hV' : |2 * (p * q) + a * (p ^ 2 - q ^ 2)| ≤ 1 / 10 ^ 9 := by
    have e : 2 * (p * q) + a * (p ^ 2 - q ^ 2) = (2 * 10 ^ 4 * (10 ^ 12 * p * (10 ^ 12 * q)) +
        m * (evZ L y * (10 ^ 12 * p * (10 ^ 12 * p) + -1 * (10 ^ 12 * q * (10 ^ 12 * q))))) / 10 ^ 28 := by rw [ha]; ring
    rw [e, abs_div, abs_of_pos (by norm_num : (0 : ℝ) < 10 ^ 28), div_le_div_iff₀ (by norm_num) (by norm_num)]
    norm_num at hV ⊢
    linarith
  have hw := norm_w a
  obtain ⟨σ, hσ⟩ : ∃ σ : ℂ, σ = p + q * I := ⟨_, rfl⟩
  rw [← hσ]
  have e1 : σ ^ 2 * (1 + a * I) - 1 = ((p ^ 2 - q ^ 2 - 2 * a * (p * q) - 1 : ℝ) : ℂ) +
        ((2 * (p * q) + a * (p ^ 2 - q ^ 2) : ℝ) : ℂ) * I := by
    rw [hσ]
    push_cast
    linear_combination ((q : ℂ) ^ 2 + 2 * (p : ℂ) * q * a + (q : ℂ) ^ 2 * a * I) * I_sq
  have e2 : (σ - s) * ((σ + s) * (1 + a * I)) = σ ^ 2 * (1 + a * I) - 1 := by
    linear_combination (-1 : ℂ) * hs.sq
  have e3 : ‖σ ^ 2 * (1 + a * I) - 1‖ ≤ 2 / 10 ^ 9 := by
    rw [e1]
    refine (norm_add_le _ _).trans ?_
    rw [norm_mul, Complex.norm_I, mul_one, Complex.norm_real, Complex.norm_real, Real.norm_eq_abs, Real.norm_eq_abs]
    linarith
  rw [← e2, norm_mul, norm_mul] at e3
  have e4 : s.re ≤ ‖σ + s‖ := by
    refine le_trans ?_ (Complex.re_le_norm _)
    simp [hσ]
    exact hp0.le
  -- the real part of the root
  have n1 : ‖s‖ ^ 2 * ‖(1 + a * I : ℂ)‖ = 1 := by rw [← norm_pow, ← norm_mul, hs.sq, norm_one]
  have n2 : ‖s‖ ^ 2 = s.re ^ 2 + s.im ^ 2 := by
    rw [← Complex.normSq_eq_norm_sq, Complex.normSq_apply]; ring
  have n3 : s.im ^ 2 ≤ s.re ^ 2 := by
    have hr := congrArg Complex.re hs.sq
    have hi := congrArg Complex.im hs.sq
    simp [pow_two] at hr hi
    have : (s.re * s.re - s.im * s.im) * (1 + a ^ 2) = 1 := by linear_combination hr + a * hi
    nlinarith [sq_nonneg a]
  have n4 : 1 / 2 ≤ (s.re * ‖(1 + a * I : ℂ)‖) ^ 2 := by
    have : ‖s‖ ^ 2 ≤ 2 * s.re ^ 2 := by rw [n2]; linarith
    have hw0 : 0 < ‖(1 + a * I : ℂ)‖ := by linarith
    rw [mul_pow]
    nlinarith
  have n5 : 7 / 10 ≤ s.re * ‖(1 + a * I : ℂ)‖ := by
    by_contra hc
    push Not at hc
    have : (s.re * ‖(1 + a * I : ℂ)‖) ^ 2 < (7 / 10) ^ 2 := by
      have := hs.re_pos
      gcongr
    norm_num at this
    linarith
  have n6 : 7 / 10 ≤ ‖σ + s‖ * ‖(1 + a * I : ℂ)‖ := n5.trans (mul_le_mul_of_nonneg_right e4 (by linarith))
  have n7 : ‖σ - s‖ * (7 / 10) ≤ 2 / 10 ^ 9 := (mul_le_mul_of_nonneg_left n6 (norm_nonneg _)).trans e3
  norm_num at n7 ⊢
  linarith

/-! ### The sum -/

/-- A line `L` that maps the numbers between -1 and 1 to an interval, and polynomials for the inverse square
roots of `1 + i m L`. -/
structure Cell where
  L : List ℤ
  r1 : Pair
  r3 : Pair
  r5 : Pair
  r7 : Pair
  r9 : Pair
  r11 : Pair
  r12 : Pair

/-- The roots of a cell are accurate. -/
def rootsOk (c : Cell) : Bool :=
  rootOk c.L 1 c.r1 && (rootOk c.L 3 c.r3 && (rootOk c.L 5 c.r5 && (rootOk c.L 7 c.r7 && (rootOk c.L 9 c.r9 &&
    (rootOk c.L 11 c.r11 && rootOk c.L 12 c.r12)))))

/-- `|1 + 12 i L|^2`, in units of `10 ^ -8`; here and below `L2` is the square of `L`. -/
def dPoly (L2 : List ℤ) : List ℤ := addZ [10 ^ 8] (scaleZ 144 L2)

/-- Real part of the factor of the last root, times `384 |1 + 12 i L|^6`, in units of `10 ^ -24`. -/
def gRe (L2 D2 D3 : List ℤ) : List ℤ :=
  addZ (scaleZ 384 D3) (addZ (scaleZ (-16) (mulZ L2 D2))
    (scaleZ (-7) (mulZ (mulZ L2 L2) (addZ [10 ^ 8] (scaleZ (-432) L2)))))

/-- Imaginary part of the factor of the last root, times `384 |1 + 12 i L|^6`, in units of `10 ^ -28`. -/
def gIm (L L2 D2 D3 : List ℤ) : List ℤ :=
  mulZ L (addZ (scaleZ 4608 D3) (addZ (scaleZ 192 (mulZ L2 D2))
    (scaleZ (-7) (mulZ (mulZ L2 L2) (addZ [-36 * 10 ^ 8] (scaleZ 1728 L2))))))

/-- The sum, times `384 |1 + 12 i L|^6`, in units of `10 ^ -40`. -/
def nPoly (c : Cell) (L2 D2 D3 : List ℤ) : List ℤ :=
  addZ (scaleZ (10 ^ 4) (mulZ c.r12.1 (gRe L2 D2 D3))) (addZ (scaleZ (-1) (mulZ c.r12.2 (gIm c.L L2 D2 D3)))
    (scaleZ 384 (mulZ (mulZ c.L D3)
      (addZ c.r1.2 (addZ c.r3.2 (addZ c.r5.2 (addZ c.r7.2 (addZ c.r9.2 c.r11.2))))))))

/-- A number close to `1 / π ^ 2`, in units of `10 ^ -10`. -/
def invPiSq : ℤ := 1013211836

/-- Numerator of the approximation of the code, with the opposite sign, in units of `10 ^ -29`. -/
def cInt : List ℤ :=
  [446620341924942, 158654991146236000, 44446762704223200000, 6847387916217450000000, 664932238528105000000000,
  36997617019394200000000000, 1122953936870060000000000000, 16092610212444200000000000000,
  85240861287744700000000000000, 74551995376392800000000000000, -298435207466372000000000000000,
  -100000000000000000000000000000]

/-- Denominator of the approximation of the code, with the opposite sign, in units of `10 ^ -29`. -/
def dInt : List ℤ :=
  [223310170962369, 79419328207146400, 22256437695622800000, 3432994310798450000000, 333919612678907000000000,
  18643221218708800000000000, 569764436880529000000000000, 8349045930671940000000000000,
  47877084400944000000000000000, 49975925037414800000000000000, -186795964993052000000000000000,
  -41648597049528800000000000000]

/-- The sum agrees with the approximation of the code. -/
def sumOk (c : Cell) : Bool :=
  forceListZ (mulZ c.L c.L) fun L2 =>
  forceListZ (mulZ (dPoly L2) (dPoly L2)) fun D2 =>
  forceListZ (mulZ (dPoly L2) D2) fun D3 =>
  forceListZ (homZ (scaleZ invPiSq L2) (10 ^ 18) cInt) fun cA =>
  forceListZ (homZ (scaleZ invPiSq L2) (10 ^ 18) dInt) fun dA =>
  forceListZ (mulZ D3 dA) fun dd =>
  forceListZ (addZ (mulZ (nPoly c L2 D2 D3) dA) (scaleZ (-192 * 10 ^ 16) (mulZ D3 cA))) fun diff =>
  test (addZ (scaleZ (192 * 10 ^ 9) dd) diff) &&
    (test (addZ (scaleZ (192 * 10 ^ 9) dd) (scaleZ (-1) diff)) && test dA)

/-- Between -0.0246 and 0.0248. -/
def cell0 : Cell where
  L := [1, 247]
  r1 := (
    [999999996250, -1852500, -228783740, 1648, 101776, -1, -51],
    [-50000000, -12349999768, 57196, 4709132, -46, -2262, 0])
  r3 := (
    [999999966250, -16672498, -2059052939, 133504, 8243856, -907, -37344, 6, 179],
    [-149999992, -37049993748, 1544290, 127146479, -11129, -549783, 73, 2570, 0])
  r5 := (
    [999999906250, -46312483, -5719587494, 1030122, 63609878, -19443, -800407, 344, 10627, -6, -145],
    [-249999961, -61749971055, 7149487, 588640365, -143122, -7070228, 2601, 91789, -45, -1240, 1])
  r7 := (
    [999999816250, -90772435, -11210379718, 3957311, 244362981, -146398, -6026661, 5080, 156838, -170, -4207,
    6, 115],
    [-349999893, -86449920574, 19618181, 1615226108, -769746, -38025221, 27421, 967577, -933, -25611, 31, 694,
    -1])
  r9 := (
    [999999696250, -150052323, -18531418079, 10813780, 667746426, -661303, -27223266, 37932, 1171117, -2102,
    -51924, 114, 2347, -6, -108],
    [-449999772, -111149831191, 41695750, 3432935467, -2704387, -133595432, 159258, 5619431, -8959, -245874,
    491, 11018, -26, -502, 1])
  r11 := (
    [999999546250, -224152104, -27682687204, 24131121, 1490081852, -2204448, -90747996, 188887, 5831691,
    -15638, -386245, 1267, 26082, -101, -1785, 8, 123],
    [-549999584, -135849691791, 76127551, 6267795217, -7375962, -364367290, 648859, 22894863, -54528, -1496427,
    4461, 100171, -359, -6814, 28, 469, -2])
  r12 := (
    [999999460001, -266759440, -32944652448, 34176795, 2110392004, -3715613, -152955809, 378886, 11697659,
    -37331, -922025, 3600, 74096, -342, -6035, 32, 497, -3],
    [-599999460, -148199599861, 98834206, 8137288143, -11396222, -562963712, 1193079, 42097354, -119320,
    -3274520, 11618, 260862, -1112, -21117, 105, 1729, -10, -143])

/-- Between 0.0246 and 0.0492. -/
def cell1 : Cell where
  L := [369, 123]
  r1 := (
    [999489902629, -339727706, -56396732, 74683, 6154, -14],
    [-18434315751, -6134326949, 5215027, 575311, -1031, -68])
  r3 := (
    [995445218287, -3009690736, -483906916, 5784838, 433774, -9279, -413, 14],
    [-54930120108, -18032791513, 136861687, 14239756, -234797, -13378, 360, 13])
  r5 := (
    [987543106751, -8104724365, -1221163462, 40861597, 2472297, -166533, -4110, 602, 1],
    [-90338498708, -28871628887, 599135070, 55045663, -2655003, -106116, 10147, 124, -35])
  r7 := (
    [976134273013, -15181154106, -2069123626, 137836142, 5456061, -959097, 5377, 5465, -246, -24],
    [-124032318840, -38101288348, 1514777659, 112856545, -11793531, -175055, 74308, -1842, -378, 26])
  r9 := (
    [961690988569, -23674161386, -2804555200, 318082277, 4139568, -3011426, 145114, 19368, -2597, -27, 27],
    [-155513016220, -45367407221, 2896940031, 153085093, -32184995, 587669, 257392, -21349, -1148, 280, -6])
  r11 := (
    [944756426832, -32984601672, -3235326992, 578248623, -10635683, -6254270, 678535, 24253, -11428, 680, 100],
    [-184431325750, -50524322457, 4660331681, 130072002, -64140385, 3833715, 500268, -95093, 1562, 1184, -128])
  r12 := (
    [935531644286, -37768717751, -3294354343, 729983496, -26051726, -7908388, 1183734, 2485, -19024, 1924, 111,
    -43],
    [-197861760475, -52318247128, 5639737158, 81968892, -82741664, 6962545, 545848, -163340, 8080, 1800, -319,
    4])

/-- Between 0.0492 and 0.0986. -/
def cell2 : Cell where
  L := [739, 247]
  r1 := (
    [997960164903, -1358167663, -223378496, 1190940, 95048, -880, -45],
    [-36824420076, -12224439446, 41667727, 4509864, -32763, -2048, 23])
  r3 := (
    [982203301133, -11488642281, -1657823294, 80843794, 4111209, -449067, -4860, 2142, -41],
    [-107571284525, -33843600313, 1006020719, 84447519, -6153165, -174618, 31580, -140, -140])
  r5 := (
    [953384859845, -28403697988, -3087242516, 444831279, -1046044, -4625492, 352068, 26584, -6114, 148, 62],
    [-170504245307, -48376348689, 3771628636, 153363551, -47683067, 1825387, 393555, -50198, -819, 659, -40])
  r7 := (
    [915720817834, -47503140243, -3070761760, 1061300040, -78242682, -9773083, 2786556, -168962, -34855, 8174,
    -358, -127],
    [-222826792077, -54590690254, 7748474770, -106564920, -120086490, 17230960, 107467, -359977, 45418, 1463,
    -1157, 125])
  r9 := (
    [873487556145, -65109865972, -1211288012, 1601166795, -256968009, 4212896, 6471655, -1354870, 67384, 28054,
    -7535, 603, 118, -42],
    [-263953338371, -53783570008, 11661070061, -840544931, -140537533, 48609593, -5162780, -434764, 237546,
    -32806, -913, 1198, -207, 3])
  r11 := (
    [830084094592, -79311090343, 1984865675, 1763368786, -474713296, 51910890, 4751543, -3137531, 598485,
    -26858, -17082, 5419, -687, -46],
    [-294826164911, -48294938910, 14548120127, -1882849156, -33324449, 73883279, -16791369, 1351718, 312679,
    -131742, 20818, 25, -853, 217])
  r12 := (
    [808691980116, -84956459146, 3836538956, 1670435541, -567695203, 85659494, -74116, -3565469, 986821,
    -119010, -10272, 8193, -1848, 152, 41],
    [-306923668624, -44508763482, 15483578122, -2428967360, 70204648, 75475533, -23207959, 3182256, 115642,
    -170706, 42620, -4359, -688, 392, -80])

/-- Between 0.0984 and 0.1970. -/
def cell3 : Cell where
  L := [1477, 493]
  r1 := (
    [991947098617, -5292039338, -828224262, 17704030, 1215686, -48756, -1749, 122],
    [-72860071179, -23669861771, 318001878, 31411328, -943264, -46739, 2462, 62])
  r3 := (
    [935454864996, -37858893277, -3303291055, 734230243, -26345127, -7974501, 1198277, 2208, -19300, 1961, 112,
    -44],
    [-197968075076, -52401611656, 5663186003, 81793202, -83345046, 7040301, 550187, -165544, 8246, 1827, -325,
    4])
  r5 := (
    [851911842812, -72544724540, 257256448, 1732216231, -364460532, 23642473, 6716487, -2260586, 269398, 18756,
    -13702, 2413, -52, -76],
    [-280472269480, -51423855554, 13221722063, -1332086449, -104463285, 63395603, -10302339, 132087, 323457,
    -76569, 5726, 1442, -532, 68])
  r7 := (
    [767646295470, -93337699589, 7574329515, 1180931990, -674314154, 155786646, -17231854, -2114151, 1547107,
    -396213, 49922, 4246, -4032, 1112, -155, -8],
    [-325489926161, -35955520679, 16327030810, -3399216514, 340576228, 48367420, -31465794, 7707769, -915560,
    -94600, 78282, -20835, 2765, 188, -210, 60])
  r9 := (
    [693743623598, -101697980495, 14006809791, -453790529, -557383215, 239282584, -60791363, 9573815, -61104,
    -578507, 238194, -59605, 8849, 281, -699, 269, -65],
    [-346241247917, -18719897423, 15223293204, -4575794170, 917108008, -95498500, -16512251, 12320003,
    -3901182, 794616, -72782, -21650, 13582, -4148, 809, -58, -30])
  r11 := (
    [632028203174, -102808238718, 18180415804, -2143180233, -163224925, 207496476, -81207702, 22237556,
    -4381293, 412431, 127934, -89344, 31998, -8244, 1451, -58, -82],
    [-353140146747, -4341901845, 12276959335, -4734007985, 1282157345, -257454336, 28789926, 4763942, -4187426,
    1573899, -420333, 78932, -5554, -3291, 1953, -666, 165])
  r12 := (
    [605332198481, -101880161812, 19508428112, -2850962074, 61051438, 161913089, -79412955, 25693324, -6354970,
    1116675, -55322, -58836, 32829, -11402, 2995, -568, 42],
    [-353500967451, 1515134484, 10627489811, -4564609880, 1367592949, -319480987, 52946053, -1913909, -2986611,
    1571538, -529541, 135523, -24828, 1535, 1196, -706, 252])

/-- Between 0.1968 and 0.3938. -/
def cell4 : Cell where
  L := [2953, 985]
  r1 := (
    [969239436935, -19312821912, -2468535287, 217790074, 5866224, -1813063, 45740, 11500, -932, -44],
    [-140117408408, -42031965959, 2155693189, 138312196, -20503078, 15357, 150197, -7579, -787, 100])
  r3 := (
    [808949980399, -84721676136, 3798120021, 1662105471, -562116242, 84367518, 1889, -3513876, 966273, -115489,
    -10231, 7988, -1788, 144, 40],
    [-306788377731, -44467426715, 15411686947, -2407746292, 68220633, 74753630, -22854725, 3112425, 117433,
    -167359, 41484, -4191, -678, 380, -77])
  r5 := (
    [661523918367, -102809436808, 16342368506, -1327221615, -377795205, 235222332, -74837760, 16509726,
    -2109397, -203868, 232931, -87585, 22134, -3578, 12, 249, -111],
    [-350932547087, -11102131451, 13845728622, -4747537693, 1129764185, -179848048, 4304870, 9848301, -4508325,
    1282174, -248538, 19815, 8657, -5200, 1681, -373, 45])
  r7 := (
    [559077727607, -98481963331, 21026878598, -3923087030, 473360495, 48237444, -59113962, 25972419, -8523386,
    2278377, -480611, 61729, 7659, -9110, 4109, -1381, 377, -80],
    [-350598106684, 10830019809, 7462824539, -3972280794, 1388363965, -393455476, 91706397, -15839873, 829958,
    840749, -498923, 188718, -56621, 13753, -2436, 117, 144, -86])
  r9 := (
    [487944164079, -89852795681, 21547650565, -5020072855, 1035616924, -159375724, 2104158, 12079973, -6796659,
    2708750, -909460, 267913, -68956, 14686, -2044, -179, 288, -147],
    [-337745275251, 22520524353, 2473686622, -2576479229, 1141648664, -402694101, 123920477, -33837043,
    8023891, -1508542, 135830, 57558, -44345, 19748, -7121, 2229, -612, 143])
  r11 := (
    [436345983771, -81585596277, 20656970807, -5307511539, 1299154694, -287716281, 51787098, -4413934,
    -2060133, 1582819, -728439, 277837, -94529, 29368, -8349, 2136, -466, 72, 2],
    [-322224487940, 28624055680, -801543096, -1411133491, 811808466, -332281903, 117542177, -37765588,
    11175520, -3033326, 736952, -149110, 18564, 3087, -3563, 1806, -727, 258, -83])
  r12 := (
    [415544125013, -77902673338, 20043712419, -5303359677, 1361207962, -326596277, 69259735, -11090637, 211215,
    888720, -541221, 236172, -88831, 30351, -9596, 2816, -760, 183, -36],
    [-314507292910, 30469335357, -1966179415, -950071383, 661423211, -290726462, 108438271, -36716724,
    11541352, -3385054, 919928, -226255, 47257, -6592, -588, 984, -533, 224, -83])

/-- Between 0.3936 and 0.7862. -/
def cell5 : Cell where
  L := [5899, 1963]
  r1 := (
    [895309056608, -56250403237, -2349335865, 1341354158, -152679207, -6587653, 4638225, -579673, -22055,
    18251, -2413, -77, 76],
    [-244394442924, -54692471036, 9667338843, -406952626, -140328880, 30859892, -1550696, -503500, 119688,
    -6677, -1980, 498, -30])
  r3 := (
    [605797575409, -101592624987, 19369452031, -2813171406, 56292288, 160388329, -78065246, 25109173, -6170884,
    1073994, -49984, -57677, 31721, -10926, 2846, -533, 37],
    [-353507660569, 1411372361, 10592803381, -4527089148, 1349971598, -313674701, 51570436, -1746840, -2942004,
    1531496, -512396, 130167, -23586, 1373, 1168, -677, 239])
  r5 := (
    [460535371675, -85429541447, 21093701258, -5189788865, 1183062405, -229666129, 28730997, 3490550, -4437444,
    2194697, -849135, 286165, -86554, 23489, -5550, 1028, -78, -51],
    [-330144309112, 25966698847, 670949337, -1945607564, 967612986, -367657928, 121890456, -36480604, 9876390,
    -2359872, 458135, -48501, -13878, 12404, -5862, 2234, -747, 224])
  r7 := (
    [381291563953, -71343810791, 18682432067, -5123412497, 1393377715, -366344363, 90874450, -20431707,
    3767078, -344391, -147857, 121394, -58989, 23957, -8802, 3013, -973, 297, -86],
    [-299975044812, 32633628883, -3620218928, -236834364, 406396375, -210430508, 86196441, -31582606, 10765114,
    -3466674, 1060112, -307338, 83726, -20988, 4603, -751, 6, 70, -43])
  r9 := (
    [331182220322, -61527220917, 16377892538, -4659833911, 1343544680, -384755677, 108151817, -29524500,
    7721898, -1891807, 414219, -70671, 3009, 5105, -3462, 1642, -676, 256, -92],
    [-274625740726, 34104354251, -5426763379, 627171926, 70449439, -93569983, 48913388, -20675305, 7904545,
    -2840582, 976013, -323335, 103679, -32213, 9684, -2806, 777, -203, 48])
  r11 := (
    [296234694037, -54509112911, 14561230271, -4203495173, 1242636978, -368994888, 109003298, -31827835,
    9133988, -2559881, 694520, -179892, 43354, -9170, 1400, 45, -170, 103, -48],
    [-254079263548, 33874395349, -6210221476, 1074339388, -121315852, -20532494, 23061607, -12030982, 5160941,
    -2016488, 744504, -264209, 90938, -30511, 10006, -3212, 1009, -310, 93])
  r12 := (
    [282350773493, -51711618251, 13811587119, -4001325031, 1191174317, -357430116, 107100803, -31862198,
    9368789, -2710797, 767782, -211335, 55901, -13931, 3138, -570, 41, 32, -25],
    [-245267385690, 33503462256, -6410546936, 1212434114, -184753667, 4839104, 13653688, -8720051, 4043896,
    -1653866, 631299, -230382, 81366, -28003, 9429, -3114, 1010, -322, 101])

/-- Between 0.7860 and 1.5710. -/
def cell6 : Cell where
  L := [11785, 3925]
  r1 := (
    [729934779887, -98431033440, 10936772181, 437824498, -662645193, 208722215, -38839686, 2509536, 1269358,
    -607562, 150076, -19947, -1450, 1725, -558, 105],
    [-337928193178, -27248727644, 16086649454, -4093212072, 630562009, -11899716, -29323944, 11198190,
    -2419369, 245468, 49680, -32720, 9212, -1486, 4, 88])
  r3 := (
    [416078918797, -77880500536, 19999967380, -5280058451, 1351666194, -323231173, 68212864, -10808220, 150581,
    895161, -538370, 233580, -87479, 29772, -9376, 2740, -735, 175, -34],
    [-314716184950, 30380046204, -1931667635, -957321336, 661294395, -289644437, 107721066, -36370998,
    11398884, -3332300, 902058, -220708, 45701, -6214, -656, 986, -526, 220, -81])
  r5 := (
    [312497421318, -57831990109, 15447912231, -4437782893, 1299635977, -380513612, 110232809, -31351823,
    8683850, -2317088, 585155, -135096, 26111, -2834, -841, 811, -424, 184, -73],
    [-263932448308, 34136907050, -5905362382, 885862566, -37599686, -53305586, 34981305, -16138991, 6512868,
    -2441834, 871896, -300113, 100219, -32575, 10319, -3185, 956, -278, 78])
  r7 := (
    [259634284154, -47186356598, 12588438244, -3662552705, 1100341090, -334795186, 102227801, -31162159,
    9449636, -2842434, 845803, -248223, 71578, -20176, 5517, -1445, 354, -77, 13],
    [-230062151712, 32591250902, -6614935226, 1391950147, -272258205, 41024461, -132616, -3736447, 2312129,
    -1071833, 441654, -170496, 63095, -22651, 7943, -2732, 925, -308, 101])
  r9 := (
    [226579217190, -40607936304, 10766251856, -3133113422, 946895553, -291382754, 90460516, -28189990, 8790595,
    -2737176, 849661, -262577, 80684, -24619, 7449, -2231, 660, -192, 55],
    [-206221728909, 30512534048, -6606599070, 1538213604, -358989917, 80133497, -15935678, 2270483, 119869,
    -295770, 173689, -79974, 33133, -12932, 4855, -1774, 634, -223, 77])
  r11 := (
    [203502454269, -36093763544, 9510093170, -2760217769, 834607793, -257696973, 80492945, -25305314, 7982333,
    -2521341, 796336, -251221, 79092, -24831, 7769, -2420, 750, -231, 71],
    [-188408919271, 28590580548, -6407974734, 1565560329, -391852940, 97577474, -23580841, 5340595, -1051765,
    136335, 18293, -25195, 14143, -6445, 2669, -1046, 395, -146, 53])
  r12 := (
    [194307043085, -34317371677, 9016649051, -2612826413, 789630879, -243922387, 76295665, -24040125, 7607023,
    -2412434, 765682, -242965, 77018, -24373, 7695, -2423, 760, -238, 74],
    [-181052499746, 27723183795, -6287335434, 1560243612, -398849039, 102305098, -25838396, 6290903, -1426336,
    278064, -33837, -6423, 7496, -4124, 1869, -773, 303, -115, 42])
theorem roots0 : rootsOk cell0 = true := by decide +kernel
theorem sum0 : sumOk cell0 = true := by decide +kernel

theorem roots1 : rootsOk cell1 = true := by decide +kernel
theorem sum1 : sumOk cell1 = true := by decide +kernel

theorem roots2 : rootsOk cell2 = true := by decide +kernel
theorem sum2 : sumOk cell2 = true := by decide +kernel

theorem roots3 : rootsOk cell3 = true := by decide +kernel
theorem sum3 : sumOk cell3 = true := by decide +kernel

theorem roots4 : rootsOk cell4 = true := by decide +kernel
theorem sum4 : sumOk cell4 = true := by decide +kernel

theorem roots5 : rootsOk cell5 = true := by decide +kernel
theorem sum5 : sumOk cell5 = true := by decide +kernel

theorem roots6 : rootsOk cell6 = true := by decide +kernel
theorem sum6 : sumOk cell6 = true := by decide +kernel

end Verif.FermiInt
