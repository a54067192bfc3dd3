/-
Lemmas about interpolation.
-/
import Verif.Model.Interp
import Mathlib.Tactic.Linarith
import Mathlib.Tactic.Ring
import Mathlib.Tactic.FieldSimp
import Mathlib.Tactic.Positivity
import Mathlib.Tactic.NormNum

set_option autoImplicit false

namespace Verif.Interp

/-- The nodes are in strictly increasing order. -/
def Increasing (n : ℕ) (xp : ℕ → ℝ) : Prop := ∀ i, i + 1 < n → xp i < xp (i + 1)

theorem Increasing.lt {n : ℕ} {xp : ℕ → ℝ} (h : Increasing n xp) {i j : ℕ} (hij : i < j)
    (hj : j < n) : xp i < xp j := by
  induction j with
  | zero => omega
  | succ j ih =>
    rcases Nat.lt_succ_iff_lt_or_eq.1 hij with h1 | rfl
    · exact (ih h1 (by omega)).trans (h j hj)
    · exact h i hj

theorem Increasing.le {n : ℕ} {xp : ℕ → ℝ} (h : Increasing n xp) {i j : ℕ} (hij : i ≤ j)
    (hj : j < n) : xp i ≤ xp j := by
  rcases hij.lt_or_eq with h1 | rfl
  · exact (h.lt h1 hj).le
  · exact le_rfl

/-- The invariant of the binary search. -/
theorem bstep_iterate (n : ℕ) (xp : ℕ → ℝ) (x : ℝ) (hn : 0 < n) (hx : xp 0 ≤ x) : ∀ k : ℕ,
    let p := (bstep xp x)^[k] (0, n)
    xp p.1 ≤ x ∧ p.1 < p.2 ∧ p.2 ≤ n ∧ (p.2 < n → x < xp p.2) ∧
      (p.2 - p.1 - 1) * 2 ^ k ≤ n - 1
  | 0 => by simp [hx, hn]
  | k + 1 => by
    obtain ⟨h1, h2, h3, h4, h5⟩ := bstep_iterate n xp x hn hx k
    simp only [Function.iterate_succ', Function.comp_apply]
    generalize (bstep xp x)^[k] (0, n) = p at *
    obtain ⟨lo, hi⟩ := p
    simp only at h1 h2 h3 h4 h5
    have hpow : 0 < 2 ^ k := by positivity
    unfold bstep
    simp only
    split
    · rename_i hlt
      have hmid : lo < (lo + hi) / 2 := by
        rcases Nat.lt_or_ge lo ((lo + hi) / 2) with h | h
        · exact h
        · exfalso
          have : (lo + hi) / 2 = lo := by omega
          rw [this] at hlt
          linarith
      refine ⟨h1, hmid, by omega, fun _ => hlt, ?_⟩
      simp only
      calc ((lo + hi) / 2 - lo - 1) * 2 ^ (k + 1)
          = (2 * ((lo + hi) / 2 - lo - 1)) * 2 ^ k := by ring
        _ ≤ (hi - lo - 1) * 2 ^ k := Nat.mul_le_mul_right _ (by omega)
        _ ≤ n - 1 := h5
    · rename_i hge
      rw [not_lt] at hge
      refine ⟨hge, by simp only; omega, h3, h4, ?_⟩
      simp only
      calc (hi - (lo + hi) / 2 - 1) * 2 ^ (k + 1)
          = (2 * (hi - (lo + hi) / 2 - 1)) * 2 ^ k := by ring
        _ ≤ (hi - lo - 1) * 2 ^ k := Nat.mul_le_mul_right _ (by omega)
        _ ≤ n - 1 := h5

/-- The binary search ends between two neighbouring nodes that enclose `x`, also if the nodes are
not in order. -/
theorem searchsorted_spec (n : ℕ) (xp : ℕ → ℝ) (x : ℝ) (hn : 0 < n) (hx : xp 0 ≤ x) :
    1 ≤ searchsorted n xp x ∧ searchsorted n xp x ≤ n ∧ xp (searchsorted n xp x - 1) ≤ x ∧
      (searchsorted n xp x < n → x < xp (searchsorted n xp x)) := by
  obtain ⟨h1, h2, h3, h4, h5⟩ := bstep_iterate n xp x hn hx (Nat.clog 2 (n + 1))
  unfold searchsorted
  generalize (bstep xp x)^[Nat.clog 2 (n + 1)] (0, n) = p at *
  obtain ⟨lo, hi⟩ := p
  simp only at h1 h2 h3 h4 h5 ⊢
  have hlog : n + 1 ≤ 2 ^ Nat.clog 2 (n + 1) := Nat.le_pow_clog (by norm_num) _
  have hlo : hi - 1 = lo := by
    by_contra hne
    have h6 : 1 ≤ hi - lo - 1 := by omega
    have : 1 * 2 ^ Nat.clog 2 (n + 1) ≤ (hi - lo - 1) * 2 ^ Nat.clog 2 (n + 1) :=
      Nat.mul_le_mul_right _ h6
    omega
  exact ⟨by omega, h3, by rw [hlo]; exact h1, h4⟩

/-- For sorted nodes the search finds the interval. -/
theorem searchsorted_eq (n : ℕ) (xp : ℕ → ℝ) (x : ℝ) (h : Increasing n xp) (i : ℕ)
    (hi : i + 1 < n) (h1 : xp i ≤ x) (h2 : x < xp (i + 1)) : searchsorted n xp x = i + 1 := by
  have h0 : xp 0 ≤ x := (h.le (Nat.zero_le i) (by omega)).trans h1
  obtain ⟨a, b, c, d⟩ := searchsorted_spec n xp x (by omega) h0
  by_contra hne
  rcases Nat.lt_or_ge (searchsorted n xp x) (i + 1) with hlt | hge
  · have := d (by omega)
    have := h.le (i := searchsorted n xp x) (j := i) (by omega) (by omega)
    linarith
  · have := h.le (i := i + 1) (j := searchsorted n xp x - 1) (by omega) (by omega)
    linarith

theorem segment_left (xp fp : ℕ → ℝ) (i : ℕ) : segment xp fp (i + 1) (xp i) = fp i := by
  unfold segment
  split <;> simp

theorem segment_right (xp fp : ℕ → ℝ) (i : ℕ) (h : xp i < xp (i + 1)) :
    segment xp fp (i + 1) (xp (i + 1)) = fp (i + 1) := by
  unfold segment
  rw [if_neg (by simp; linarith)]
  simp only [Nat.add_sub_cancel]
  rw [div_self (by linarith)]
  ring

/-- On each interval of sorted nodes, ends included, interpolation is the linear function through
the two points. -/
theorem interpLR_on_interval (n : ℕ) (xp fp : ℕ → ℝ) (l r x : ℝ) (h : Increasing n xp) (i : ℕ)
    (hi : i + 1 < n) (h1 : xp i ≤ x) (h2 : x ≤ xp (i + 1)) :
    interpLR n xp fp l r x =
      fp i + (x - xp i) / (xp (i + 1) - xp i) * (fp (i + 1) - fp i) := by
  have hd := h i hi
  have hl0 : ¬ xp (n - 1) < x := by
    have := h.le (i := i + 1) (j := n - 1) (by omega) (by omega)
    linarith
  have hx0 : ¬ x < xp 0 := by
    have := h.le (i := 0) (j := i) (by omega) (by omega)
    linarith
  have hseg : segment xp fp (i + 1) x =
      fp i + (x - xp i) / (xp (i + 1) - xp i) * (fp (i + 1) - fp i) := by
    unfold segment
    rw [if_neg (by simp; linarith)]
    simp only [Nat.add_sub_cancel]
  rw [← hseg]
  unfold interpLR
  rw [if_neg hl0, if_neg hx0]
  rcases h2.lt_or_eq with h3 | rfl
  · rw [searchsorted_eq n xp x h i hi h1 h3]
    congr 1
    omega
  · by_cases hlast : i + 2 < n
    · rw [searchsorted_eq n xp _ h (i + 1) hlast le_rfl (h _ hlast)]
      rw [show min (max (i + 1 + 1) 1) (n - 1) = i + 1 + 1 by omega, segment_left,
        segment_right _ _ _ hd]
    · obtain ⟨a, b, c, -⟩ := searchsorted_spec n xp (xp (i + 1)) (by omega)
        ((h.le (Nat.zero_le i) (by omega)).trans h1)
      have : i + 1 ≤ searchsorted n xp (xp (i + 1)) := by
        by_contra hlt
        obtain ⟨-, -, -, d⟩ := searchsorted_spec n xp (xp (i + 1)) (by omega)
          ((h.le (Nat.zero_le i) (by omega)).trans h1)
        have h5 := d (by omega)
        have := h.le (i := searchsorted n xp (xp (i + 1))) (j := i + 1) (by omega) (by omega)
        linarith
      congr 1
      omega

/-- Every point in the range of the nodes lies in one of the intervals. -/
theorem exists_interval (n : ℕ) (xp : ℕ → ℝ) (x : ℝ) (hn : 2 ≤ n) (h0 : xp 0 ≤ x)
    (h1 : x ≤ xp (n - 1)) : ∃ i, i + 1 < n ∧ xp i ≤ x ∧ x ≤ xp (i + 1) := by
  have hex : ∀ j, j + 1 < n → x ≤ xp (j + 1) → ∃ i, i + 1 < n ∧ xp i ≤ x ∧ x ≤ xp (i + 1) := by
    intro j
    induction j with
    | zero => exact fun hj hx => ⟨0, hj, h0, hx⟩
    | succ j ih =>
      intro hj hx
      by_cases hjx : xp (j + 1) ≤ x
      · exact ⟨j + 1, hj, hjx, hx⟩
      · exact ih (by omega) (not_le.1 hjx).le
  refine hex (n - 2) (by omega) ?_
  rwa [show n - 2 + 1 = n - 1 by omega]

end Verif.Interp
