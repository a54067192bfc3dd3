/-
Polynomials with rational and with integer coefficients as lists, and a test for positivity on an
interval that the kernel can evaluate.  Used for the rational approximations of Fermi integrals.
-/
import Mathlib.Data.Real.Basic
import Mathlib.Data.Rat.Cast.Order
import Mathlib.Tactic.Linarith
import Mathlib.Tactic.Ring
import Mathlib.Tactic.Positivity
import Mathlib.Tactic.NormNum

set_option autoImplicit false

namespace Verif.RatPoly

/-- The value of a polynomial given by its coefficients, lowest first. -/
noncomputable def ev : List ℚ → ℝ → ℝ
  | [], _ => 0
  | a :: p, x => a + x * ev p x

/-- The identity on `n`, in a form that makes the kernel evaluate `n` first. -/
def forceNat {α : Type} (n : ℕ) (f : ℕ → α) : α :=
  match n with
  | 0 => f 0
  | k + 1 => f (k + 1)

theorem forceNat_eq {α : Type} (n : ℕ) (f : ℕ → α) : forceNat n f = f n := by cases n <;> rfl

/-- The same for an integer. -/
def forceInt {α : Type} (n : ℤ) (f : ℤ → α) : α :=
  match n with
  | .ofNat k => forceNat k fun k => f (.ofNat k)
  | .negSucc k => forceNat k fun k => f (.negSucc k)

theorem forceInt_eq {α : Type} (n : ℤ) (f : ℤ → α) : forceInt n f = f n := by
  cases n <;> simp [forceInt, forceNat_eq]

/-- The same for a rational number. -/
def forceRat {α : Type} (q : ℚ) (f : ℚ → α) : α :=
  forceInt q.num fun n => forceNat q.den fun d => f (mkRat n d)

theorem forceRat_eq {α : Type} (q : ℚ) (f : ℚ → α) : forceRat q f = f q := by
  simp [forceRat, forceInt_eq, forceNat_eq, Rat.mkRat_self]

/-- The same for a list of rational numbers. -/
def forceList {α : Type} : List ℚ → (List ℚ → α) → α
  | [], f => f []
  | a :: p, f => forceRat a fun a => forceList p fun p => f (a :: p)

theorem forceList_eq {α : Type} (p : List ℚ) (f : List ℚ → α) : forceList p f = f p := by
  induction p generalizing f with
  | nil => rfl
  | cons a p ih => simp [forceList, forceRat_eq, ih]

/-- Sum of polynomials. -/
def addAux : List ℚ → List ℚ → List ℚ
  | [], q => q
  | p, [] => p
  | a :: p, b :: q => (a + b) :: addAux p q

/-- Sum of polynomials, of evaluated lists. -/
def add (p q : List ℚ) : List ℚ := forceList p fun p => forceList q fun q => addAux p q

/-- Multiple of a polynomial. -/
def scale (c : ℚ) (p : List ℚ) : List ℚ := forceRat c fun c => forceList p fun p => p.map (c * ·)

/-- Product of polynomials. -/
def mulAux : List ℚ → List ℚ → List ℚ
  | [], _ => []
  | a :: p, q => add (scale a q) (0 :: mulAux p q)

/-- Product of polynomials, of evaluated lists. -/
def mul (p q : List ℚ) : List ℚ := forceList p fun p => forceList q fun q => mulAux p q

theorem ev_add (p q : List ℚ) (x : ℝ) : ev (add p q) x = ev p x + ev q x := by
  simp only [add, forceList_eq]
  induction p generalizing q with
  | nil => simp [addAux, ev]
  | cons a p ih =>
    cases q with
    | nil => simp [addAux, ev]
    | cons b q => simp only [addAux, ev, ih]; push_cast; ring

theorem ev_scale (c : ℚ) (p : List ℚ) (x : ℝ) : ev (scale c p) x = c * ev p x := by
  simp only [scale, forceRat_eq, forceList_eq]
  induction p with
  | nil => simp [ev]
  | cons a p ih => simp only [List.map_cons, ev, ih]; push_cast; ring

theorem ev_mul (p q : List ℚ) (x : ℝ) : ev (mul p q) x = ev p x * ev q x := by
  simp only [mul, forceList_eq]
  induction p with
  | nil => simp [mulAux, ev]
  | cons a p ih => simp only [mulAux, ev_add, ev_scale, ev, ih]; push_cast; ring

/-- The value of a polynomial with integer coefficients. -/
noncomputable def evZ : List ℤ → ℝ → ℝ
  | [], _ => 0
  | a :: p, x => a + x * evZ p x

/-- Sum of polynomials with integer coefficients. -/
def addZ : List ℤ → List ℤ → List ℤ
  | [], q => q
  | p, [] => p
  | a :: p, b :: q => forceInt (a + b) fun c => c :: addZ p q

/-- Evaluation of a list of integers. -/
def forceListZ {α : Type} : List ℤ → (List ℤ → α) → α
  | [], f => f []
  | a :: p, f => forceInt a fun a => forceListZ p fun p => f (a :: p)

theorem forceListZ_eq {α : Type} (p : List ℤ) (f : List ℤ → α) : forceListZ p f = f p := by
  induction p generalizing f with
  | nil => rfl
  | cons a p ih => simp [forceListZ, forceInt_eq, ih]

theorem evZ_addZ (p q : List ℤ) (x : ℝ) : evZ (addZ p q) x = evZ p x + evZ q x := by
  induction p generalizing q with
  | nil => simp [addZ, evZ]
  | cons a p ih =>
    cases q with
    | nil => simp [addZ, evZ]
    | cons b q => simp only [addZ, forceInt_eq, evZ, ih]; push_cast; ring

/-- The polynomial `p (y + 1)`. -/
def shift : List ℤ → List ℤ
  | [] => []
  | a :: p => forceListZ (shift p) fun q => addZ (a :: q) q

theorem evZ_shift (p : List ℤ) (y : ℝ) : evZ (shift p) y = evZ p (y + 1) := by
  induction p with
  | nil => simp [shift, evZ]
  | cons a p ih => simp only [shift, forceListZ_eq, evZ_addZ, evZ, ih]; ring

/-- A lower bound of a polynomial on the interval from zero to one. -/
def lower : List ℤ → ℤ
  | [] => 0
  | a :: p => forceInt (lower p) fun l => a + min 0 l

theorem lower_le (p : List ℤ) (y : ℝ) (h0 : 0 ≤ y) (h1 : y ≤ 1) : (lower p : ℝ) ≤ evZ p y := by
  induction p with
  | nil => simp [lower, evZ]
  | cons a p ih =>
    simp only [lower, forceInt_eq, evZ]
    push_cast
    rcases le_total 0 (lower p) with h | h
    · have h' : (0 : ℝ) ≤ lower p := by exact_mod_cast h
      rw [min_eq_left h']
      nlinarith
    · have h' : (lower p : ℝ) ≤ 0 := by exact_mod_cast h
      rw [min_eq_right h']
      nlinarith

/-- The lower bound is positive on `k` intervals of length one. -/
def check : ℕ → List ℤ → Bool
  | 0, _ => true
  | k + 1, p => forceListZ p fun p => decide (0 < lower p) && check k (shift p)

theorem check_pos (k : ℕ) (p : List ℤ) (h : check k p = true) (y : ℝ) (h0 : 0 ≤ y) (h1 : y < k) :
    0 < evZ p y := by
  induction k generalizing p y with
  | zero => simp at h1; linarith
  | succ k ih =>
    simp only [check, forceListZ_eq, Bool.and_eq_true, decide_eq_true_eq] at h
    rcases lt_or_ge y 1 with hy | hy
    · have := lower_le p y h0 hy.le
      have h2 : (0 : ℝ) < lower p := by exact_mod_cast h.1
      linarith
    · have := ih (shift p) h.2 (y - 1) (by linarith) (by push_cast at h1; linarith)
      rwa [evZ_shift, sub_add_cancel] at this

/-- The coefficients in units of `1 / S`, rounded down, for the variable multiplied by `m`. -/
def toIntAux (m S : ℕ) : List ℚ → List ℤ
  | [] => []
  | a :: p => (a.num * ((S * m ^ p.length : ℕ) : ℤ) / (a.den : ℤ)) :: toIntAux m S p

/-- The same, of an evaluated list. -/
def toInt (m S : ℕ) (p : List ℚ) : List ℤ := forceList p (toIntAux m S)

theorem floor_le (a : ℚ) (n : ℕ) : ((a.num * (n : ℤ) / (a.den : ℤ) : ℤ) : ℝ) ≤ a * n := by
  have hd : (0 : ℤ) < a.den := by exact_mod_cast a.den_pos
  have h1 := Int.ediv_mul_le (a.num * (n : ℤ)) hd.ne'
  have h2 : ((a.num * (n : ℤ) / (a.den : ℤ) : ℤ) : ℝ) * (a.den : ℝ) ≤ a.num * n := by exact_mod_cast h1
  have hd' : (0 : ℝ) < a.den := by exact_mod_cast a.den_pos
  have e : (a : ℝ) = a.num / a.den := by exact_mod_cast (Rat.num_div_den a).symm
  rw [e, div_mul_eq_mul_div, le_div_iff₀ hd']
  exact h2

theorem toInt_le (m S : ℕ) (p : List ℚ) (t : ℝ) (ht : 0 ≤ t) :
    evZ (toInt m S p) (m * t) * m ≤ S * m ^ p.length * ev p t := by
  simp only [toInt, forceList_eq]
  induction p with
  | nil => simp [toIntAux, evZ, ev]
  | cons a p ih =>
    simp only [toIntAux, evZ, ev, List.length_cons]
    have h := floor_le a (S * m ^ p.length)
    have hm : (0 : ℝ) ≤ m := Nat.cast_nonneg m
    have h1 := mul_le_mul_of_nonneg_right h hm
    have h2 := mul_le_mul_of_nonneg_left ih (mul_nonneg hm ht)
    push_cast at h1 ⊢
    rw [pow_succ]
    nlinarith

/-- A polynomial with rational coefficients is positive where the test says so. -/
theorem ev_pos (m S k : ℕ) (hm : 0 < m) (p : List ℚ) (h : check k (toInt m S p) = true) (t : ℝ)
    (h0 : 0 ≤ t) (h1 : m * t < k) : 0 < ev p t := by
  have hm' : (0 : ℝ) < m := by exact_mod_cast hm
  have a := check_pos k _ h (m * t) (by positivity) h1
  have b := toInt_le m S p t h0
  by_contra hc
  push Not at hc
  have : (S : ℝ) * m ^ p.length * ev p t ≤ 0 := mul_nonpos_of_nonneg_of_nonpos (by positivity) hc
  have := mul_pos a hm'
  linarith

end Verif.RatPoly
