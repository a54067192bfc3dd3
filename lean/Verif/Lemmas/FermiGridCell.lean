/-
Helpers for C79: from the numbers of the grid to all arguments between them.
-/
import Verif.Lemmas.FermiGridNode
import Mathlib.Analysis.Convex.Slope

set_option autoImplicit false

namespace Verif.FermiInt
open Real Verif.RatPoly

/-- The arithmetic of the bound between two points. -/
theorem cell_arith (a b w l k Ga Gb Gc Gx : ℝ) (ha : 0 < a) (hw : 0 < w) (hab : b = a + w)
    (hl0 : 0 ≤ l) (hl1 : l ≤ 1) (gab : Ga < Gb) (gbc : Gb < Gc)
    (na : Ga ≤ (1 + 134 / 10 ^ 8) * a) (nb : (1 - 134 / 10 ^ 8) * b ≤ Gb)
    (nb' : Gb ≤ (1 + 134 / 10 ^ 8) * b) (na' : (1 - 134 / 10 ^ 8) * a ≤ Ga)
    (nc : Gc ≤ (1 + 134 / 10 ^ 8) * (b + w)) (hs : b + (b + w) ≤ 7000 * w)
    (hkw : (k - 1) * w ≤ 8 / 10 ^ 7 * b) (up : Gx ≤ Gb + l * k * (Gc - Gb))
    (low : Gb + l * (2 - k) * (Gb - Ga) ≤ Gx) :
    |Gx - (b + l * w)| ≤ 5 / 10 ^ 6 * (b + l * w) := by
  have hb0 : 0 < b := by linarith
  have hlw : 0 ≤ l * w := mul_nonneg hl0 hw.le
  have step : ∀ d : ℝ, 0 ≤ d → d ≤ 101 / 100 * w → l * ((k - 1) * d) ≤ 81 / 10 ^ 8 * b := by
    intro d d0 d1
    have key : (k - 1) * d ≤ 81 / 10 ^ 8 * b := by
      rcases le_total k 1 with hk1 | hk1
      · have : (k - 1) * d ≤ 0 := mul_nonpos_of_nonpos_of_nonneg (by linarith) d0
        linarith
      · have := mul_le_mul_of_nonneg_left d1 (sub_nonneg.2 hk1)
        linarith
    have h1 : l * ((k - 1) * d) ≤ l * (81 / 10 ^ 8 * b) := mul_le_mul_of_nonneg_left key hl0
    have h2 : l * (81 / 10 ^ 8 * b) ≤ 1 * (81 / 10 ^ 8 * b) :=
      mul_le_mul_of_nonneg_right hl1 (by positivity)
    linarith
  have t1 := step (Gb - Ga) (by linarith) (by linarith)
  have t2 := step (Gc - Gb) (by linarith) (by linarith)
  have hla : l * a ≤ 1 * a := mul_le_mul_of_nonneg_right hl1 ha.le
  have hlb : l * b ≤ 1 * b := mul_le_mul_of_nonneg_right hl1 hb0.le
  have hla0 : 0 ≤ l * a := mul_nonneg hl0 ha.le
  rw [abs_le]
  constructor
  · have e1 : (1 + l) * ((1 - 134 / 10 ^ 8) * b) ≤ (1 + l) * Gb :=
      mul_le_mul_of_nonneg_left nb (by linarith)
    have e2 : l * Ga ≤ l * ((1 + 134 / 10 ^ 8) * a) := mul_le_mul_of_nonneg_left na hl0
    have e3 : l * w = l * b - l * a := by rw [hab]; ring
    have e4 : l * (2 - k) * (Gb - Ga) = l * Gb - l * Ga - l * ((k - 1) * (Gb - Ga)) := by ring
    rw [e4] at low
    linarith
  · have e1 : (1 - l) * Gb ≤ (1 - l) * ((1 + 134 / 10 ^ 8) * b) :=
      mul_le_mul_of_nonneg_left nb' (by linarith)
    have e2 : l * Gc ≤ l * ((1 + 134 / 10 ^ 8) * (b + w)) := mul_le_mul_of_nonneg_left nc hl0
    have e4 : l * k * (Gc - Gb) = l * Gc - l * Gb + l * ((k - 1) * (Gc - Gb)) := by ring
    rw [e4] at up
    linarith

/-- The bounds of a convex function of a concave one between two points. -/
theorem cell_bounds (G g : ℝ → ℝ) (hG : ConvexOn ℝ Set.univ G) (hGm : StrictMono G) (a b c w x : ℝ)
    (hw : 0 < w) (hab : b = a + w) (hbc : c = b + w) (hg : ConcaveOn ℝ (Set.Icc a c) g)
    (h1 : g a < g b) (h2 : g b < g c) (hbx : b < x) (hx2 : x ≤ c) (m2 : g x ≤ g c) :
    G (g x) ≤ G (g b) + (x - b) / w * ((g b - g a) / (g c - g b)) * (G (g c) - G (g b)) ∧
    G (g b) + (x - b) / w * (2 - (g b - g a) / (g c - g b)) * (G (g b) - G (g a)) ≤ G (g x) := by
  have D1 : 0 < g b - g a := by linarith
  have D2 : 0 < g c - g b := by linarith
  have gab := hGm h1
  have gbc := hGm h2
  have s1 := hg.slope_anti_adjacent (x := a) (y := b) (z := x) ⟨le_rfl, by linarith⟩ ⟨by linarith, hx2⟩
    (by linarith) hbx
  have u1 : (g x - g b) * w ≤ (g b - g a) * (x - b) := by
    rw [div_le_div_iff₀ (by linarith) (by linarith)] at s1
    rw [show b - a = w by linarith] at s1
    linarith
  have u2 : (g c - g b) * (x - b) ≤ (g x - g b) * w := by
    rcases hx2.eq_or_lt with e | hxc
    · rw [e, show c - b = w by linarith]
    · have s2 := hg.slope_anti_adjacent (x := b) (y := x) (z := c) ⟨by linarith, by linarith⟩
        ⟨by linarith, le_rfl⟩ hbx hxc
      rw [div_le_div_iff₀ (by linarith) (by linarith), show c - x = w - (x - b) by linarith] at s2
      linarith
  have u0 : 0 < g x - g b := by
    have : 0 < (g x - g b) * w := (mul_pos D2 (by linarith)).trans_le u2
    exact (pos_iff_pos_of_mul_pos this).2 hw
  have v1 : (G (g b) - G (g a)) * (g x - g b) ≤ (G (g x) - G (g b)) * (g b - g a) := by
    have := hG.slope_mono_adjacent (x := g a) (y := g b) (z := g x) trivial trivial h1 (by linarith)
    rw [div_le_div_iff₀ D1 u0] at this
    exact this
  have v2 : (G (g x) - G (g b)) * (g c - g b) ≤ (G (g c) - G (g b)) * (g x - g b) := by
    rcases m2.eq_or_lt with e | hlt
    · rw [e]
    · have := hG.slope_mono_adjacent (x := g b) (y := g x) (z := g c) trivial trivial (by linarith) hlt
      rw [div_le_div_iff₀ u0 (by linarith)] at this
      linarith
  have hl0 : 0 ≤ (x - b) / w := div_nonneg (by linarith) hw.le
  have ex : x - b = (x - b) / w * w := by field_simp
  have ek : g b - g a = (g b - g a) / (g c - g b) * (g c - g b) := by field_simp
  have hk0 : 0 < (g b - g a) / (g c - g b) := div_pos D1 D2
  generalize (x - b) / w = l at *
  generalize (g b - g a) / (g c - g b) = k at *
  rw [ex] at u1 u2
  have r1 : g x - g b ≤ l * k * (g c - g b) := by
    rw [ek, ← mul_assoc] at u1
    have := le_of_mul_le_mul_right u1 hw
    linarith
  have r2 : l * (g c - g b) ≤ g x - g b := by
    rw [← mul_assoc] at u2
    have := le_of_mul_le_mul_right u2 hw
    linarith
  constructor
  · have h3 := mul_le_mul_of_nonneg_left r1 (show 0 ≤ G (g c) - G (g b) by linarith)
    have h4 : (G (g x) - G (g b)) * (g c - g b) ≤ (l * k * (G (g c) - G (g b))) * (g c - g b) := by linarith
    have := le_of_mul_le_mul_right h4 D2
    linarith
  · have h3 := mul_le_mul_of_nonneg_left r2 (show 0 ≤ G (g b) - G (g a) by linarith)
    have h4 : ((G (g b) - G (g a)) * l) * (g c - g b) ≤ ((G (g x) - G (g b)) * k) * (g c - g b) := by
      rw [ek] at v1; linarith
    have h5 := le_of_mul_le_mul_right h4 D2
    have h6 : (2 - k) * k ≤ 1 := by nlinarith [sq_nonneg (k - 1)]
    have h7 : (l * (2 - k) * (G (g b) - G (g a))) * k ≤ (G (g x) - G (g b)) * k := by
      have : l * (G (g b) - G (g a)) * ((2 - k) * k) ≤ l * (G (g b) - G (g a)) * 1 :=
        mul_le_mul_of_nonneg_left h6 (mul_nonneg hl0 (by linarith))
      linarith
    have := le_of_mul_le_mul_right h7 hk0
    linarith

/-- A convex function of a concave one, close to the identity at three equidistant points, is close to it
between the last two of them, if the second difference of the concave one is small. -/
theorem cell (G g : ℝ → ℝ) (hG : ConvexOn ℝ Set.univ G) (hGm : StrictMono G) (a b c w x : ℝ)
    (ha : 0 < a) (hw : 0 < w) (hab : b = a + w) (hbc : c = b + w) (hg : ConcaveOn ℝ (Set.Icc a c) g)
    (h1 : g a < g b) (h2 : g b < g c) (hx1 : b ≤ x) (hx2 : x ≤ c) (m2 : g x ≤ g c)
    (na : G (g a) ≤ (1 + 134 / 10 ^ 8) * a) (nb : (1 - 134 / 10 ^ 8) * b ≤ G (g b))
    (nb' : G (g b) ≤ (1 + 134 / 10 ^ 8) * b) (na' : (1 - 134 / 10 ^ 8) * a ≤ G (g a))
    (nc : G (g c) ≤ (1 + 134 / 10 ^ 8) * c) (hs : b + c ≤ 7000 * w)
    (hd : (2 * g b - g a - g c) * w ≤ 8 / 10 ^ 7 * b * (g c - g b)) :
    |G (g x) - x| ≤ 5 / 10 ^ 6 * x := by
  rcases hx1.eq_or_lt with e | hbx
  · rw [← e, abs_le]
    constructor <;> linarith
  obtain ⟨up, low⟩ := cell_bounds G g hG hGm a b c w x hw hab hbc hg h1 h2 hbx hx2 m2
  have D2 : 0 < g c - g b := by linarith
  have hkw : ((g b - g a) / (g c - g b) - 1) * w ≤ 8 / 10 ^ 7 * b := by
    have e : (g b - g a) / (g c - g b) - 1 = (2 * g b - g a - g c) / (g c - g b) := by field_simp; ring
    rw [e, div_mul_eq_mul_div, div_le_iff₀ D2]
    exact hd
  have ex : x = b + (x - b) / w * w := by field_simp; ring
  have hl0 : 0 ≤ (x - b) / w := div_nonneg (by linarith) hw.le
  have hl1 : (x - b) / w ≤ 1 := by rw [div_le_one hw]; linarith
  have := cell_arith a b w ((x - b) / w) ((g b - g a) / (g c - g b)) (G (g a)) (G (g b)) (G (g c)) (G (g x))
    ha hw hab hl0 hl1 (hGm h1) (hGm h2) na nb nb' na' (hbc ▸ nc) (hbc ▸ hs) hkw up low
  rwa [← ex] at this

end Verif.FermiInt
