/-
Helpers for C79: the accuracy of the middle pieces of the approximate inverse.
-/
import Verif.Lemmas.FermiGridCell

set_option autoImplicit false

namespace Verif.FermiInt
open Real Verif.RatPoly

/-! ### The middle pieces are concave -/

/-- Positive if the quotient of two polynomials is concave. -/
def bend (a b : List ℚ) : List ℚ :=
  add (scale 2 (mul (quot a b) (diff b))) (scale (-1) (mul (diff (quot a b)) b))

theorem quot_concave (a b : List ℚ) (lo hi : ℝ) (hb : ∀ x, lo ≤ x → x ≤ hi → 0 < ev b x)
    (hq : ∀ x, lo ≤ x → x ≤ hi → 0 < ev (bend a b) x) :
    ConcaveOn ℝ (Set.Icc lo hi) (rational a b) := by
  apply AntitoneOn.concaveOn_of_deriv (convex_Icc lo hi)
  · exact fun x hx => (hasDerivAt_quot a b x (hb x hx.1 hx.2).ne').continuousAt.continuousWithinAt
  · intro x hx
    rw [interior_Icc] at hx
    exact (hasDerivAt_quot a b x (hb x hx.1.le hx.2.le).ne').differentiableAt.differentiableWithinAt
  · have hd : ∀ x, lo ≤ x → x ≤ hi → HasDerivAt (fun x => ev (quot a b) x / ev b x ^ 2)
        (-(ev (bend a b) x / ev b x ^ 3)) x := by
      intro x h0 h1
      have hp := hb x h0 h1
      refine ((hasDerivAt_ev (quot a b) x).div ((hasDerivAt_ev b x).fun_pow 2) (pow_pos hp 2).ne').congr_deriv ?_
      simp only [bend, ev_add, ev_scale, ev_mul, ev_diff]
      generalize ev (quot a b) x = q
      generalize dev (quot a b) x = q'
      generalize dev b x = B'
      generalize ev b x = B at *
      push_cast
      field_simp
      ring
    have anti : AntitoneOn (fun x => ev (quot a b) x / ev b x ^ 2) (Set.Icc lo hi) := by
      apply antitoneOn_of_deriv_nonpos (convex_Icc lo hi)
      · exact fun x hx => (hd x hx.1 hx.2).continuousAt.continuousWithinAt
      · intro x hx
        rw [interior_Icc] at hx
        exact (hd x hx.1.le hx.2.le).differentiableAt.differentiableWithinAt
      · intro x hx
        rw [interior_Icc] at hx
        rw [(hd x hx.1.le hx.2.le).deriv]
        have := hb x hx.1.le hx.2.le
        have := hq x hx.1.le hx.2.le
        rw [neg_nonpos]
        positivity
    intro x hx y hy hxy
    rw [interior_Icc] at hx hy
    rw [(hasDerivAt_quot a b x (hb x hx.1.le hx.2.le).ne').deriv,
      (hasDerivAt_quot a b y (hb y hy.1.le hy.2.le).ne').deriv]
    exact anti ⟨hx.1.le, hx.2.le⟩ ⟨hy.1.le, hy.2.le⟩ hxy

theorem piece_concave (a b : List ℚ) (α β lo hi : ℝ) (hβ : 0 < β) (h1 : -1 / 100 ≤ α + β * lo)
    (h2 : α + β * hi ≤ 102 / 100) (hb : check 105 (toInt 101 (3 ^ 60) (comp [-1 / 100, 1] b)) = true)
    (hq : check 105 (toInt 101 (3 ^ 60) (comp [-1 / 100, 1] (bend a b))) = true) :
    ConcaveOn ℝ (Set.Icc lo hi) (fun x => rational a b (α + β * x)) := by
  have pos : ∀ p, check 105 (toInt 101 (3 ^ 60) (comp [-1 / 100, 1] p)) = true →
      ∀ x : ℝ, -1 / 100 ≤ x → x ≤ 102 / 100 → 0 < ev p x := by
    intro p hp x h1 h2
    exact ev_pos_from (-1 / 100) 101 (3 ^ 60) 105 (by norm_num) p hp x (by push_cast; exact h1)
      (by push_cast; linarith)
  have H := quot_concave a b (-1 / 100) (102 / 100) (pos b hb) (pos _ hq)
  refine ⟨convex_Icc _ _, ?_⟩
  intro x hx y hy s t hs ht hst
  have hx1 := mul_le_mul_of_nonneg_left hx.1 hβ.le
  have hx2 := mul_le_mul_of_nonneg_left hx.2 hβ.le
  have hy1 := mul_le_mul_of_nonneg_left hy.1 hβ.le
  have hy2 := mul_le_mul_of_nonneg_left hy.2 hβ.le
  have := H.2 (x := α + β * x) (y := α + β * y) ⟨by linarith, by linarith⟩ ⟨by linarith, by linarith⟩ hs ht hst
  simp only [smul_eq_mul] at this ⊢
  have e : α + β * (s * x + t * y) = s * (α + β * x) + t * (α + β * y) := by
    linear_combination (-α) * hst
  rw [e]
  exact this

/-! ### The numbers of a grid are values of the piece -/

/-- The value of a cubic polynomial. -/
noncomputable def cubicR (c : ℕ × ℕ × ℕ × ℕ) (t : ℝ) : ℝ :=
  c.1 + t * (c.2.1 + t * (c.2.2.1 + t * c.2.2.2))

/-- The piece of a grid. -/
noncomputable def gridVal (g : Grid) (x : ℝ) : ℝ :=
  cubicR g.n ((g.be * x - g.al) / g.Q) / cubicR g.d ((g.be * x - g.al) / g.Q)

theorem cubic_eq (c : ℕ × ℕ × ℕ × ℕ) (p q : ℕ) (hq : 0 < q) :
    ((cubic c p q : ℕ) : ℝ) = (q : ℝ) ^ 3 * cubicR c (p / q) := by
  have h : (q : ℝ) ≠ 0 := by positivity
  simp only [cubic, cubicR, Nat.mul_eq, Nat.add_eq, Nat.pow_eq]
  push_cast
  field_simp
  ring

/-- A number of the grid: bounds of the value of the piece, and its closeness. -/
def Node (g : Grid) (X A : ℕ) : Prop :=
  (A : ℝ) / gS ≤ gridVal g (X / g.U) ∧ gridVal g (X / g.U) ≤ ((A + 2 : ℕ) : ℝ) / gS ∧
  (1 - 134 / 10 ^ 8) * ((X : ℝ) / g.U) ≤ unnorm (gridVal g (X / g.U)) ∧
  unnorm (gridVal g (X / g.U)) ≤ (1 + 134 / 10 ^ 8) * ((X : ℝ) / g.U)

attribute [local irreducible] gS gS2 gS3 eD eP

theorem node_spec (g : Grid) (hQ : 0 < g.Q) (hU : 0 < g.U) (X : ℕ) (f : ℕ → Bool) (h : node g X f = true) :
    ∃ A, Node g X A ∧ f A = true := by
  unfold node at h
  simp only [forceNat_eq, Nat.mul_eq, Nat.add_eq, Nat.sub_eq, Bool.and_eq_true] at h
  obtain ⟨⟨⟨⟨⟨k0, k1⟩, k2⟩, k3⟩, k4⟩, k5⟩ := h
  replace k0 := Nat.le_of_ble_eq_true k0
  replace k1 := Nat.le_of_ble_eq_true k1
  replace k2 := Nat.le_of_ble_eq_true k2
  replace k3 := Nat.le_of_ble_eq_true k3
  have hS : (0 : ℝ) < gS := by exact_mod_cast gS_cast.2.2
  have hQ' : (0 : ℝ) < g.Q := by exact_mod_cast hQ
  have hU' : (0 : ℝ) < g.U := by exact_mod_cast hU
  have hq : 0 < g.Q * g.U := Nat.mul_pos hQ hU
  have et : ((g.be * X - g.al * g.U : ℕ) : ℝ) / ((g.Q * g.U : ℕ) : ℝ) = (g.be * (X / g.U) - g.al) / g.Q := by
    rw [Nat.cast_sub k0]
    push_cast
    field_simp
  have en := cubic_eq g.n (g.be * X - g.al * g.U) (g.Q * g.U) hq
  have ed := cubic_eq g.d (g.be * X - g.al * g.U) (g.Q * g.U) hq
  rw [et] at en ed
  generalize cubic g.n (g.be * X - g.al * g.U) (g.Q * g.U) = N at *
  generalize cubic g.d (g.be * X - g.al * g.U) (g.Q * g.U) = D at *
  have hD : (0 : ℝ) < D := by exact_mod_cast k1
  have hq' : (0 : ℝ) < ((g.Q * g.U : ℕ) : ℝ) := by exact_mod_cast hq
  have ev : gridVal g (X / g.U) = (N : ℝ) / D := by
    unfold gridVal
    rw [en, ed, mul_div_mul_left _ _ (by positivity)]
  generalize 2 * Nat.div (N * gS - D) (2 * D) + 1 = A at *
  have b1 : (A : ℝ) / gS ≤ gridVal g (X / g.U) := by
    rw [ev, div_le_div_iff₀ hS hD]
    exact_mod_cast k2
  have b2 : gridVal g (X / g.U) ≤ ((A + 2 : ℕ) : ℝ) / gS := by
    rw [ev, div_le_div_iff₀ hD hS]
    exact_mod_cast k3
  have := nodeTest_spec A X g.U hU k4 _ b1 b2
  exact ⟨A, ⟨b1, b2, this.1, this.2⟩, k5⟩

theorem runGrid_spec (g : Grid) (hQ : 0 < g.Q) (hU : 0 < g.U) (hX : 0 < g.dX) (lo hi : ℝ)
    (hlo : 0 < lo) (hc : ConcaveOn ℝ (Set.Icc lo hi) (gridVal g)) (n : ℕ) (Y p c : ℕ)
    (hm : MonotoneOn (gridVal g) (Set.Icc (((Y + g.dX : ℕ) : ℝ) / g.U) hi))
    (hp : Node g Y p) (hcn : Node g (Y + g.dX) c) (h : runGrid g n (Y + g.dX) p c = true)
    (h0 : lo ≤ (Y : ℝ) / g.U) (h1 : ((Y + g.dX + n * g.dX : ℕ) : ℝ) / g.U ≤ hi) (x : ℝ)
    (hx1 : ((Y + g.dX : ℕ) : ℝ) / g.U ≤ x) (hx2 : x ≤ ((Y + g.dX + n * g.dX : ℕ) : ℝ) / g.U) :
    |unnorm (gridVal g x) - x| ≤ 5 / 10 ^ 6 * x := by
  have hU' : (0 : ℝ) < g.U := by exact_mod_cast hU
  have hS : (0 : ℝ) < gS := by exact_mod_cast gS_cast.2.2
  have hX' : (0 : ℝ) < g.dX := by exact_mod_cast hX
  induction n generalizing Y p c with
  | zero =>
    simp only [zero_mul, add_zero] at hx2
    have e : x = ((Y + g.dX : ℕ) : ℝ) / g.U := le_antisymm hx2 hx1
    have hx0 : 0 ≤ x := by rw [e]; positivity
    obtain ⟨-, -, n1, n2⟩ := hcn
    rw [← e] at n1 n2
    rw [abs_le]
    constructor <;> linarith
  | succ n ih =>
    simp only [runGrid, forceNat_eq] at h
    obtain ⟨A, hA, h⟩ := node_spec g hQ hU _ _ h
    simp only [Bool.and_eq_true, Nat.mul_eq, Nat.add_eq] at h hA
    obtain ⟨⟨⟨⟨k1, k2⟩, k3⟩, k4⟩, k5⟩ := h
    replace k1 := Nat.le_of_ble_eq_true k1
    replace k2 := Nat.le_of_ble_eq_true k2
    replace k3 := Nat.le_of_ble_eq_true k3
    replace k4 := Nat.le_of_ble_eq_true k4
    have hstep : ((Y + g.dX + g.dX : ℕ) : ℝ) / g.U ≤ ((Y + g.dX + (n + 1) * g.dX : ℕ) : ℝ) / g.U := by
      apply div_le_div_of_nonneg_right _ hU'.le
      push_cast
      have : (0 : ℝ) ≤ n * g.dX := by positivity
      linarith
    have l12 : ((Y + g.dX : ℕ) : ℝ) / g.U ≤ ((Y + g.dX + g.dX : ℕ) : ℝ) / g.U := by
      apply div_le_div_of_nonneg_right _ hU'.le
      push_cast
      linarith
    rcases le_total x (((Y + g.dX + g.dX : ℕ) : ℝ) / g.U) with hle | hge
    · obtain ⟨p1, p2, p3, p4⟩ := hp
      obtain ⟨c1, c2, c3, c4⟩ := hcn
      obtain ⟨a1, a2, a3, a4⟩ := hA
      have i1 : ((p : ℝ) + 3) ≤ c := by exact_mod_cast k2
      have i2 : ((c : ℝ) + 3) ≤ A := by exact_mod_cast k3
      rw [Nat.cast_add p 2] at p2
      rw [Nat.cast_add c 2] at c2
      rw [Nat.cast_add A 2] at a2
      have two : ((2 : ℕ) : ℝ) = 2 := by norm_num
      rw [two] at p2 c2 a2
      rw [div_le_iff₀ hS] at p1 c1 a1
      rw [le_div_iff₀ hS] at p2 c2 a2
      have g1 : gridVal g (Y / g.U) < gridVal g (((Y + g.dX : ℕ) : ℝ) / g.U) :=
        lt_of_mul_lt_mul_right (by linarith) hS.le
      have g2 : gridVal g (((Y + g.dX : ℕ) : ℝ) / g.U) < gridVal g (((Y + g.dX + g.dX : ℕ) : ℝ) / g.U) :=
        lt_of_mul_lt_mul_right (by linarith) hS.le
      refine cell unnorm (gridVal g) unnorm_convex unnorm_strictMono (Y / g.U) (((Y + g.dX : ℕ) : ℝ) / g.U)
        (((Y + g.dX + g.dX : ℕ) : ℝ) / g.U) (g.dX / g.U) x (hlo.trans_le h0) (by positivity)
        (by push_cast; ring) (by push_cast; ring) (hc.subset (Set.Icc_subset_Icc h0 (hstep.trans h1))
          (convex_Icc _ _)) g1 g2 hx1 hle (hm ⟨hx1, hle.trans (hstep.trans h1)⟩
          ⟨l12, hstep.trans h1⟩ hle) p4 c3 c4 p3 a4 ?_ ?_
      · have : ((Y + g.dX : ℕ) : ℝ) + ((Y + g.dX + g.dX : ℕ) : ℝ) ≤ 7000 * g.dX := by exact_mod_cast k4
        rw [← add_div, ← mul_div_assoc]
        exact div_le_div_of_nonneg_right this hU'.le
      · have k1' : ((2 * (c : ℝ) + 4) * g.dX * 10000000 + 8 * (Y + g.dX) * (c + 2)) ≤
            8 * ((Y : ℝ) + g.dX) * A + (p + A) * g.dX * 10000000 := by exact_mod_cast k1
        have e1 : ((2 * (c : ℝ) + 4) - p - A) * g.dX * 10000000 ≤ 8 * ((Y : ℝ) + g.dX) * (A - (c + 2)) := by
          linarith
        generalize gridVal g (((Y + g.dX + g.dX : ℕ) : ℝ) / g.U) = v2 at *
        generalize gridVal g (((Y + g.dX : ℕ) : ℝ) / g.U) = v1 at *
        generalize gridVal g ((Y : ℝ) / g.U) = v0 at *
        have e2 : (2 * v1 - v0 - v2) * gS ≤ (2 * (c : ℝ) + 4) - p - A := by linarith
        have e3 : (A : ℝ) - (c + 2) ≤ (v2 - v1) * gS := by linarith
        have e4 := mul_le_mul_of_nonneg_right e2 hX'.le
        have hb : (0 : ℝ) ≤ 8 * (Y + g.dX) := by positivity
        have e5 := mul_le_mul_of_nonneg_left e3 hb
        have e6 : ((2 * v1 - v0 - v2) * g.dX * 10000000) * gS ≤ (8 * ((Y : ℝ) + g.dX) * (v2 - v1)) * gS := by
          linarith
        have e7 := le_of_mul_le_mul_right e6 hS
        rw [← mul_div_assoc, ← mul_div_assoc, div_mul_eq_mul_div]
        apply div_le_div_of_nonneg_right _ hU'.le
        push_cast
        linarith
    · refine ih (Y + g.dX) c A (hm.mono (Set.Icc_subset_Icc_left l12)) hcn hA k5 ?_ ?_ hge ?_
      · refine h0.trans (div_le_div_of_nonneg_right ?_ hU'.le)
        push_cast; linarith
      · refine le_trans (le_of_eq ?_) h1
        congr 2; ring
      · refine hx2.trans (le_of_eq ?_)
        congr 2; ring

theorem gridTest_spec (g : Grid) (hQ : 0 < g.Q) (hU : 0 < g.U) (hX : 0 < g.dX) (n Y : ℕ) (lo hi : ℝ)
    (hlo : lo = (Y : ℝ) / g.U) (hY : 0 < Y) (hhi : hi = ((Y + g.dX + n * g.dX : ℕ) : ℝ) / g.U)
    (hc : ConcaveOn ℝ (Set.Icc lo hi) (gridVal g))
    (hm : MonotoneOn (gridVal g) (Set.Icc (((Y + g.dX : ℕ) : ℝ) / g.U) hi))
    (h : gridTest g n (Y + g.dX) = true) (x : ℝ) (hx1 : ((Y + g.dX : ℕ) : ℝ) / g.U ≤ x) (hx2 : x ≤ hi) :
    |unnorm (gridVal g x) - x| ≤ 5 / 10 ^ 6 * x := by
  unfold gridTest at h
  obtain ⟨p, hp, h⟩ := node_spec g hQ hU _ _ h
  obtain ⟨c, hcn, h⟩ := node_spec g hQ hU _ _ h
  rw [Nat.sub_eq, Nat.add_sub_cancel] at hp
  have hU' : (0 : ℝ) < g.U := by exact_mod_cast hU
  have hY' : (0 : ℝ) < Y := by exact_mod_cast hY
  refine runGrid_spec g hQ hU hX lo hi (by rw [hlo]; positivity) hc n Y p c hm hp hcn h hlo.le hhi.ge x hx1 ?_
  rw [← hhi]; exact hx2

end Verif.FermiInt
