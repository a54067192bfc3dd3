/-
Property C79: the approximations of the inverse of the Fermi integral of order 1/2.
-/
import Verif.Props.FermiMono
import Mathlib.Analysis.Complex.Exponential

set_option autoImplicit false

namespace Verif.FermiInt

open Real RatPoly MeasureTheory Filter Topology

/-! ### The pieces increase -/

/-- The numerator of the derivative of a quotient. -/
def quot (a b : List ℚ) : List ℚ := add (mul (diff a) b) (scale (-1) (mul a (diff b)))

theorem hasDerivAt_quot (a b : List ℚ) (x : ℝ) (hb : ev b x ≠ 0) :
    HasDerivAt (fun x => rational a b x) (ev (quot a b) x / ev b x ^ 2) x := by
  have e : (fun x => rational a b x) = fun x => ev a x / ev b x := by funext x; rw [rational_ev]
  rw [e]
  refine ((hasDerivAt_ev a x).div (hasDerivAt_ev b x) hb).congr_deriv ?_
  simp only [quot, ev_add, ev_scale, ev_mul, ev_diff]
  push_cast; ring

theorem quot_mono (a b : List ℚ) (lo hi : ℝ) (hb : ∀ x, lo ≤ x → x ≤ hi → 0 < ev b x)
    (hq : ∀ x, lo ≤ x → x ≤ hi → 0 < ev (quot a b) x) :
    StrictMonoOn (rational a b) (Set.Icc lo hi) := by
  apply strictMonoOn_of_deriv_pos (convex_Icc lo hi)
  · exact fun x hx => (hasDerivAt_quot a b x (hb x hx.1 hx.2).ne').continuousAt.continuousWithinAt
  · intro x hx
    rw [interior_Icc] at hx
    rw [show deriv (rational a b) x = _ from (hasDerivAt_quot a b x (hb x hx.1.le hx.2.le).ne').deriv]
    have := hb x hx.1.le hx.2.le
    have := hq x hx.1.le hx.2.le
    positivity

/-- An affine increasing argument in the interval of the quotients of the middle pieces. -/
theorem piece_mono (a b : List ℚ) (α β lo hi : ℝ) (hβ : 0 < β) (h1 : -1 / 100 ≤ α + β * lo)
    (h2 : α + β * hi ≤ 102 / 100) (hb : check 105 (toInt 101 (3 ^ 60) (comp [-1 / 100, 1] b)) = true)
    (hq : check 105 (toInt 101 (3 ^ 60) (comp [-1 / 100, 1] (quot a b))) = true) :
    StrictMonoOn (fun x => rational a b (α + β * x)) (Set.Icc lo hi) := by
  have pos : ∀ p, check 105 (toInt 101 (3 ^ 60) (comp [-1 / 100, 1] p)) = true →
      ∀ x : ℝ, -1 / 100 ≤ x → x ≤ 102 / 100 → 0 < ev p x := by
    intro p hp x h1 h2
    exact ev_pos_from (-1 / 100) 101 (3 ^ 60) 105 (by norm_num) p hp x (by push_cast; exact h1)
      (by push_cast; linarith)
  have := quot_mono a b (-1 / 100) (102 / 100) (pos b hb) (pos _ hq)
  intro x hx y hy hxy
  have hx1 := mul_le_mul_of_nonneg_left hx.1 hβ.le
  have hx2 := mul_le_mul_of_nonneg_left hx.2 hβ.le
  have hy1 := mul_le_mul_of_nonneg_left hy.1 hβ.le
  have hy2 := mul_le_mul_of_nonneg_left hy.2 hβ.le
  have hm := mul_lt_mul_of_pos_left hxy hβ
  exact this ⟨by linarith, by linarith⟩ ⟨by linarith, by linarith⟩ (by linarith)

theorem piece1_mono : StrictMonoOn fukushimaPiece1 (Set.Icc 1.22 3.43) :=
  piece_mono _ _ _ _ _ _ (by norm_num) (by norm_num) (by norm_num) (by decide +kernel) (by decide +kernel)

theorem piece2_mono : StrictMonoOn fukushimaPiece2 (Set.Icc 3.43 10.5) :=
  piece_mono _ _ _ _ _ _ (by norm_num) (by norm_num) (by norm_num) (by decide +kernel) (by decide +kernel)

theorem piece3_mono : StrictMonoOn fukushimaPiece3 (Set.Icc 10.5 34.3) :=
  piece_mono _ _ _ _ _ _ (by norm_num) (by norm_num) (by norm_num) (by decide +kernel) (by decide +kernel)

theorem piece4_mono : StrictMonoOn fukushimaPiece4 (Set.Icc 34.3 117) :=
  piece_mono _ _ _ _ _ _ (by norm_num) (by norm_num) (by norm_num) (by decide +kernel) (by decide +kernel)

/-- Numerator and denominator of the first and the last piece. -/
def n0 : List ℚ := [127.456123, 30.3620672, 2.29733586]
def d0 : List ℚ := [112.955041, -18.1545791, 1.0]
def n5 : List ℚ := [1974.50048, 144.437558, 1.0]
def d5 : List ℚ := [10.3906494, 0.669052603]

theorem nd0_pos (x : ℝ) (h0 : 0 ≤ x) (h1 : x ≤ 1.22) :
    0 < ev n0 x ∧ 0 < ev d0 x ∧ 0 < ev (incr1 n0 d0) x := by
  norm_num at h1
  have h2 : ((50 : ℕ) : ℝ) * x < (62 : ℕ) := by push_cast; linarith
  exact ⟨ev_pos 50 (3 ^ 60) 62 (by norm_num) _ (by decide +kernel) x h0 h2,
    ev_pos 50 (3 ^ 60) 62 (by norm_num) _ (by decide +kernel) x h0 h2,
    ev_pos 50 (3 ^ 60) 62 (by norm_num) _ (by decide +kernel) x h0 h2⟩

theorem piece0_mono : StrictMonoOn fukushimaPiece0 (Set.Ioc 0 1.22) := by
  have key : StrictMonoOn (fun x : ℝ => x * rational n0 d0 x) (Set.Ioc 0 1.22) := by
    have hd : ∀ x : ℝ, 0 ≤ x → x ≤ 1.22 →
        HasDerivAt (fun x : ℝ => x * rational n0 d0 x) (ev (incr1 n0 d0) x / ev d0 x ^ 2) x := by
      intro x h0 h1
      have hp := nd0_pos x h0 h1
      refine ((hasDerivAt_id x).mul (hasDerivAt_quot n0 d0 x hp.2.1.ne')).congr_deriv ?_
      rw [rational_ev]
      have := hp.2.1.ne'
      simp only [id, incr1, quot, ev_add, ev_scale, ev_mul, ev_theta, ev_diff]
      generalize ev n0 x = A
      generalize dev n0 x = A'
      generalize dev d0 x = B'
      generalize ev d0 x = B at *
      push_cast
      field_simp
      ring
    apply strictMonoOn_of_deriv_pos (convex_Ioc 0 1.22)
    · exact fun x hx => (hd x hx.1.le hx.2).continuousAt.continuousWithinAt
    · intro x hx
      rw [interior_Ioc] at hx
      rw [(hd x hx.1.le hx.2.le).deriv]
      obtain ⟨-, p1, p2⟩ := nd0_pos x hx.1.le hx.2.le
      positivity
  intro x hx y hy hxy
  refine Real.log_lt_log ?_ (key hx hy hxy)
  obtain ⟨p1, p2, -⟩ := nd0_pos x hx.1.le hx.2
  have := hx.1
  show 0 < x * rational n0 d0 x
  rw [rational_ev]
  positivity

/-- The square of the last piece as a function of `q = 111.632691 x ^ (-4/3)` decreases. -/
theorem last_anti (p q : ℝ) (h0 : 0 < p) (hpq : p < q) (h1 : q ≤ 1) :
    rational n5 d5 (1 - q) / q < rational n5 d5 (1 - p) / p ∧ 0 < rational n5 d5 (1 - q) := by
  rw [rational_ev, rational_ev]
  simp only [n5, d5, ev]
  norm_num
  constructor
  · rw [div_div, div_div, div_lt_div_iff₀ (by nlinarith) (by nlinarith)]
    nlinarith [mul_pos h0 (h0.trans hpq), sq_nonneg (p - q), mul_pos h0 (sub_pos.2 hpq),
      mul_nonneg (sub_nonneg.2 h1) h0.le, mul_pos (mul_pos h0 (h0.trans hpq)) (sub_pos.2 hpq)]
  · apply div_pos <;> nlinarith

theorem piece5_eq (x : ℝ) :
    fukushimaPiece5 x = √(rational n5 d5 (1 - 111.632691 * x ^ (-4 / 3 : ℝ)) /
      (111.632691 * x ^ (-4 / 3 : ℝ))) := by
  unfold fukushimaPiece5
  rw [neg_neg, show (1.0 : ℝ) + -111.632691 * x ^ (-4 / 3 : ℝ) = 1 - 111.632691 * x ^ (-4 / 3 : ℝ) by
    norm_num; ring]
  rfl

/-- An upper bound of `111.632691 * 117 ^ (-4/3)`. -/
noncomputable def qMax : ℝ := 0.19507887613

theorem q_le (x : ℝ) (hx : 117 ≤ x) : 0 < 111.632691 * x ^ (-4 / 3 : ℝ) ∧
    111.632691 * x ^ (-4 / 3 : ℝ) ≤ qMax := by
  have hx0 : 0 < x := by linarith
  have hp := rpow_pos_of_pos hx0 (-4 / 3)
  refine ⟨by positivity, ?_⟩
  have h1 : x ^ (-4 / 3 : ℝ) ≤ (117 : ℝ) ^ (-4 / 3 : ℝ) :=
    rpow_le_rpow_of_nonpos (by norm_num) hx (by norm_num)
  have h2 : ((117 : ℝ) ^ (-4 / 3 : ℝ)) ^ 3 = 1 / 117 ^ 4 := by
    rw [← rpow_natCast, ← rpow_mul (by norm_num), show (-4 / 3 * ((3 : ℕ) : ℝ)) = -((4 : ℕ) : ℝ) by norm_num,
      rpow_neg (by norm_num), rpow_natCast, one_div]
  have h3 : (117 : ℝ) ^ (-4 / 3 : ℝ) ≤ qMax / 111.632691 := by
    apply le_of_pow_le_pow_left₀ (n := 3) (by norm_num) (by unfold qMax; norm_num)
    rw [h2]; unfold qMax; norm_num
  calc 111.632691 * x ^ (-4 / 3 : ℝ) ≤ 111.632691 * (qMax / 111.632691) :=
        mul_le_mul_of_nonneg_left (h1.trans h3) (by norm_num)
    _ = qMax := by unfold qMax; norm_num

theorem piece5_mono : StrictMonoOn fukushimaPiece5 (Set.Ici 117) := by
  intro x hx y hy hxy
  have hx' : (117 : ℝ) ≤ x := hx
  have hx0 : 0 < x := by linarith
  rw [piece5_eq, piece5_eq]
  obtain ⟨x1, x2⟩ := q_le x hx
  obtain ⟨y1, y2⟩ := q_le y hy
  have hq : qMax ≤ 1 := by unfold qMax; norm_num
  have hlt : 111.632691 * y ^ (-4 / 3 : ℝ) < 111.632691 * x ^ (-4 / 3 : ℝ) :=
    mul_lt_mul_of_pos_left (rpow_lt_rpow_of_neg hx0 hxy (by norm_num)) (by norm_num)
  obtain ⟨h1, h2⟩ := last_anti _ _ y1 hlt (x2.trans hq)
  exact Real.sqrt_lt_sqrt (div_nonneg h2.le x1.le) h1

/-! ### The steps between the pieces are upward -/

theorem jump1 : fukushimaPiece0 1.22 < fukushimaPiece1 1.22 := by
  have e : fukushimaPiece1 1.22 = ((evQ [22.3158685, 122.487649, 135.023156, 30.5460708]
      (-0.550848552 + 0.452114610 * 1.22) / evQ [28.0566860, 59.9641578, 27.8629074, 1.0]
      (-0.550848552 + 0.452114610 * 1.22) : ℚ) : ℝ) := by
    unfold fukushimaPiece1
    rw [rational_ev]
    push_cast [evQ_eq]
    norm_num
  have e0 : (1.22 : ℝ) * rational [127.456123, 30.3620672, 2.29733586] [112.955041, -18.1545791, 1.0] 1.22 =
      ((1.22 * evQ n0 1.22 / evQ d0 1.22 : ℚ) : ℝ) := by
    show (1.22 : ℝ) * rational n0 d0 1.22 = _
    rw [rational_ev]
    push_cast [evQ_eq]
    norm_num
    ring
  have hpos : (0 : ℝ) < ((1.22 * evQ n0 1.22 / evQ d0 1.22 : ℚ) : ℝ) := by
    rw [Rat.cast_pos]; decide +kernel
  unfold fukushimaPiece0
  rw [e0, Real.log_lt_iff_lt_exp hpos, e]
  have h : ((0.79733356 : ℚ) : ℝ) ≤ ((evQ [22.3158685, 122.487649, 135.023156, 30.5460708]
      (-0.550848552 + 0.452114610 * 1.22) / evQ [28.0566860, 59.9641578, 27.8629074, 1.0]
      (-0.550848552 + 0.452114610 * 1.22) : ℚ) : ℝ) := Rat.cast_le.2 (by decide +kernel)
  refine lt_of_lt_of_le ?_ (exp_le_exp.2 h)
  have h1 : ((1.22 * evQ n0 1.22 / evQ d0 1.22 : ℚ) : ℝ) < ((2.2196144 : ℚ) : ℝ) :=
    Rat.cast_lt.2 (by decide +kernel)
  refine h1.trans_le ?_
  refine le_trans ?_ (Real.sum_le_exp_of_nonneg (by norm_num) 12)
  simp only [Finset.sum_range_succ, Finset.sum_range_zero, Nat.factorial]
  norm_num

theorem jump2 : fukushimaPiece1 3.43 < fukushimaPiece2 3.43 := by
  unfold fukushimaPiece1 fukushimaPiece2
  rw [rational_ev, rational_ev]
  simp only [ev]
  norm_num

theorem jump3 : fukushimaPiece2 10.5 < fukushimaPiece3 10.5 := by
  unfold fukushimaPiece2 fukushimaPiece3
  rw [rational_ev, rational_ev]
  simp only [ev]
  norm_num

theorem jump4 : fukushimaPiece3 34.3 < fukushimaPiece4 34.3 := by
  unfold fukushimaPiece3 fukushimaPiece4
  rw [rational_ev, rational_ev]
  simp only [ev]
  norm_num

theorem jump5 : fukushimaPiece4 117 < fukushimaPiece5 117 := by
  rw [piece5_eq]
  obtain ⟨q1, q2⟩ := q_le 117 le_rfl
  apply Real.lt_sqrt_of_sq_lt
  refine lt_of_lt_of_le (b := rational n5 d5 (1 - qMax) / qMax) ?_ ?_
  · unfold fukushimaPiece4
    rw [rational_ev, rational_ev]
    simp only [ev, n5, d5, qMax]
    norm_num
  · rcases q2.eq_or_lt with h | h
    · rw [h]
    · exact (last_anti _ _ q1 h (by unfold qMax; norm_num)).1.le

/-! ### The whole function increases -/

theorem mono_glue (G f : ℝ → ℝ) (a c : ℝ) (hac : a ≤ c) (h1 : StrictMonoOn f (Set.Icc a c))
    (h2 : ∀ x, a ≤ x → x < c → G x = f x) (h3 : StrictMonoOn G (Set.Ici c)) (h4 : f c < G c) :
    StrictMonoOn G (Set.Ici a) := by
  intro x hx y hy hxy
  have hx' : a ≤ x := hx
  have hy' : a ≤ y := hy
  rcases lt_or_ge y c with h | h
  · rw [h2 x hx' (hxy.trans h), h2 y hy' h]
    exact h1 ⟨hx', (hxy.trans h).le⟩ ⟨hy', h.le⟩ hxy
  · rcases lt_or_ge x c with h' | h'
    · rw [h2 x hx' h']
      have e1 := h1 ⟨hx', h'.le⟩ ⟨hac, le_rfl⟩ h'
      have e2 := h3.monotoneOn (Set.mem_Ici.2 le_rfl) (Set.mem_Ici.2 h) h
      linarith
    · exact h3 h' h hxy

/-- The function of the argument multiplied by the norm. -/
noncomputable def scaledInverse (x : ℝ) : ℝ :=
  (if x < 1.22 then fukushimaPiece0 x else 0) +
  (if 1.22 ≤ x ∧ x < 3.43 then fukushimaPiece1 x else 0) +
  (if 3.43 ≤ x ∧ x < 10.5 then fukushimaPiece2 x else 0) +
  (if 10.5 ≤ x ∧ x < 34.3 then fukushimaPiece3 x else 0) +
  (if 34.3 ≤ x ∧ x < 117 then fukushimaPiece4 x else 0) +
  (if 117 ≤ x then fukushimaPiece5 x else 0)

theorem scaled0 (x : ℝ) (h : x < 1.22) : scaledInverse x = fukushimaPiece0 x := by
  unfold scaledInverse
  norm_num at h
  rw [if_pos (by norm_num; linarith), if_neg (by norm_num; intro; linarith),
    if_neg (by norm_num; intro; linarith), if_neg (by norm_num; intro; linarith),
    if_neg (by norm_num; intro; linarith), if_neg (by linarith)]
  ring

theorem scaled1 (x : ℝ) (h0 : 1.22 ≤ x) (h : x < 3.43) : scaledInverse x = fukushimaPiece1 x := by
  unfold scaledInverse
  rw [if_neg (not_lt.2 h0), if_pos ⟨h0, h⟩]
  norm_num at h h0
  rw [if_neg (by norm_num; intro; linarith), if_neg (by norm_num; intro; linarith),
    if_neg (by norm_num; intro; linarith), if_neg (by linarith)]
  ring

theorem scaled2 (x : ℝ) (h0 : 3.43 ≤ x) (h : x < 10.5) : scaledInverse x = fukushimaPiece2 x := by
  unfold scaledInverse
  rw [if_pos (⟨h0, h⟩ : 3.43 ≤ x ∧ x < 10.5)]
  norm_num at h h0
  rw [if_neg (by norm_num; linarith), if_neg (by norm_num; intro; linarith),
    if_neg (by norm_num; intro; linarith),
    if_neg (by norm_num; intro; linarith), if_neg (by linarith)]
  ring

theorem scaled3 (x : ℝ) (h0 : 10.5 ≤ x) (h : x < 34.3) : scaledInverse x = fukushimaPiece3 x := by
  unfold scaledInverse
  rw [if_pos (⟨h0, h⟩ : 10.5 ≤ x ∧ x < 34.3)]
  norm_num at h h0
  rw [if_neg (by norm_num; linarith), if_neg (by norm_num; intro; linarith),
    if_neg (by norm_num; intro; linarith),
    if_neg (by norm_num; intro; linarith), if_neg (by linarith)]
  ring

theorem scaled4 (x : ℝ) (h0 : 34.3 ≤ x) (h : x < 117) : scaledInverse x = fukushimaPiece4 x := by
  unfold scaledInverse
  rw [if_pos (⟨h0, h⟩ : 34.3 ≤ x ∧ x < 117)]
  norm_num at h h0
  rw [if_neg (by norm_num; linarith), if_neg (by norm_num; intro; linarith),
    if_neg (by norm_num; intro; linarith),
    if_neg (by norm_num; intro; linarith), if_neg (by linarith)]
  ring

theorem scaled5 (x : ℝ) (h0 : 117 ≤ x) : scaledInverse x = fukushimaPiece5 x := by
  unfold scaledInverse
  rw [if_pos h0, if_neg (by norm_num; linarith), if_neg (by norm_num; intro; linarith),
    if_neg (by norm_num; intro; linarith),
    if_neg (by norm_num; intro; linarith), if_neg (by norm_num; intro; linarith)]
  ring

theorem scaled_mono : StrictMonoOn scaledInverse (Set.Ioi 0) := by
  have m5 : StrictMonoOn scaledInverse (Set.Ici 117) :=
    piece5_mono.congr fun x hx => (scaled5 x hx).symm
  have m4 : StrictMonoOn scaledInverse (Set.Ici 34.3) :=
    mono_glue _ _ _ _ (by norm_num) piece4_mono (fun x h0 h => scaled4 x h0 h) m5
      (by rw [scaled5 117 le_rfl]; exact jump5)
  have m3 : StrictMonoOn scaledInverse (Set.Ici 10.5) :=
    mono_glue _ _ _ _ (by norm_num) piece3_mono (fun x h0 h => scaled3 x h0 h) m4
      (by rw [scaled4 34.3 le_rfl (by norm_num)]; exact jump4)
  have m2 : StrictMonoOn scaledInverse (Set.Ici 3.43) :=
    mono_glue _ _ _ _ (by norm_num) piece2_mono (fun x h0 h => scaled2 x h0 h) m3
      (by rw [scaled3 10.5 le_rfl (by norm_num)]; exact jump3)
  have m1 : StrictMonoOn scaledInverse (Set.Ici 1.22) :=
    mono_glue _ _ _ _ (by norm_num) piece1_mono (fun x h0 h => scaled1 x h0 h) m2
      (by rw [scaled2 3.43 le_rfl (by norm_num)]; exact jump2)
  intro x hx y hy hxy
  have hx' : (0 : ℝ) < x := hx
  rcases lt_or_ge x 1.22 with h | h
  · have m0 : StrictMonoOn scaledInverse (Set.Ici x) :=
      mono_glue _ fukushimaPiece0 x 1.22 h.le
        (piece0_mono.mono fun z hz => ⟨hx'.trans_le hz.1, hz.2⟩) (fun z _ hz => scaled0 z hz) m1
        (by rw [scaled1 1.22 le_rfl (by norm_num)]; exact jump1)
    exact m0 (Set.mem_Ici.2 le_rfl) (Set.mem_Ici.2 hxy.le) hxy
  · exact m1 h (h.trans hxy.le) hxy

theorem inverse_eq (y : ℝ) : inverseFermi12 y = scaledInverse (y * Gamma (1 / 2 + 1)) := by
  have e : (1 / 2 + 1.0 : ℝ) = 1 / 2 + 1 := by norm_num
  unfold inverseFermi12
  rw [e]
  rfl

theorem norm_pos : 0 < Gamma (1 / 2 + 1) := Gamma_pos_of_pos (by norm_num)

/-- C79.  The approximate inverse increases for all positive arguments, across all of its pieces: more
electrons have a larger chemical potential. -/
theorem inverse_strictMonoOn : StrictMonoOn inverseFermi12 (Set.Ioi 0) := by
  intro x hx y hy hxy
  rw [inverse_eq, inverse_eq]
  exact scaled_mono (mul_pos hx norm_pos) (mul_pos hy norm_pos) (mul_lt_mul_of_pos_right hxy norm_pos)

example : inverseFermi12 1 < inverseFermi12 200 :=
  inverse_strictMonoOn (Set.mem_Ioi.2 (by norm_num)) (Set.mem_Ioi.2 (by norm_num)) (by norm_num)

/-! ### Accuracy without degeneracy -/

/-- `x n0(x)`. -/
def r0 : List ℚ := 0 :: n0

/-- Positive if the approximation of the inverse is not too large, and not too small. -/
def invUp : List ℚ := add (scale (1 + 1 / 10 ^ 7) (mul d0 (hom r0 d0 c12.b))) (scale (-1) (mul n0 (hom r0 d0 c12.a)))
def invLow : List ℚ := add (mul n0 (hom r0 d0 c12.a)) (scale (-(1 - 1 / 10 ^ 7)) (mul d0 (hom r0 d0 c12.b)))

theorem inv_tests : check 62 (toInt 50 (3 ^ 60) invUp) = true ∧ check 62 (toInt 50 (3 ^ 60) invLow) = true := by
  decide +kernel

theorem piece0_composite (x : ℝ) (h0 : 0 < x) (h1 : x ≤ 1.22) :
    exp (fukushimaPiece0 x) ≤ 37 / 5 ∧
    |exp (fukushimaPiece0 x) * rational c12.a c12.b (exp (fukushimaPiece0 x)) - x| ≤ 1 / 10 ^ 7 * x := by
  obtain ⟨pn, pd, -⟩ := nd0_pos x h0.le h1
  have et : exp (fukushimaPiece0 x) = ev r0 x / ev d0 x := by
    have : fukushimaPiece0 x = log (x * rational n0 d0 x) := rfl
    rw [this, exp_log (by rw [rational_ev]; positivity), rational_ev]
    simp only [r0, ev]
    push_cast; ring
  have hr0 : ev r0 x = x * ev n0 x := by simp [r0, ev]
  have h1' := h1
  norm_num at h1'
  constructor
  · rw [et, hr0, div_le_iff₀ pd]
    simp only [n0, d0, ev]
    norm_num
    nlinarith [mul_nonneg h0.le h0.le, mul_nonneg (mul_nonneg h0.le h0.le) (sub_nonneg.2 h1'),
      mul_nonneg h0.le (sub_nonneg.2 h1')]
  · have h2 : ((50 : ℕ) : ℝ) * x < (62 : ℕ) := by push_cast; linarith
    have t1 := ev_pos 50 (3 ^ 60) 62 (by norm_num) _ inv_tests.1 x h0.le h2
    have t2 := ev_pos 50 (3 ^ 60) 62 (by norm_num) _ inv_tests.2 x h0.le h2
    have ha := ev_hom r0 d0 c12.a x pd.ne'
    have hb := ev_hom r0 d0 c12.b x pd.ne'
    rw [show c12.a.length = 8 from rfl] at ha
    rw [show c12.b.length = 8 from rfl] at hb
    have hT : 0 < ev r0 x / ev d0 x := by rw [hr0]; positivity
    obtain ⟨qa, qb, -⟩ := b_pos _ hT.le
    simp only [invUp, invLow, ev_add, ev_scale, ev_mul] at t1 t2
    push_cast at t1 t2
    rw [et, rational_ev]
    generalize ev c12.a (ev r0 x / ev d0 x) = A at *
    generalize ev c12.b (ev r0 x / ev d0 x) = B at *
    rw [hr0]
    generalize ev (hom r0 d0 c12.a) x = HA at *
    generalize ev (hom r0 d0 c12.b) x = HB at *
    generalize ev n0 x = N at *
    generalize ev d0 x = D at *
    have hD8 : 0 < D ^ 8 := by positivity
    have eHA : HA = D ^ 7 * A := by
      have : HA * D = D ^ 7 * A * D := by rw [ha]; ring
      exact mul_right_cancel₀ pd.ne' this
    have eHB : HB = D ^ 7 * B := by
      have : HB * D = D ^ 7 * B * D := by rw [hb]; ring
      exact mul_right_cancel₀ pd.ne' this
    rw [eHA, eHB] at t1 t2
    have hD7 : 0 < D ^ 7 := by positivity
    have u1 : N * A < (1 + 1 / 10 ^ 7) * (D * B) := by
      by_contra hc
      push Not at hc
      have := mul_le_mul_of_nonneg_left hc hD7.le
      nlinarith
    have u2 : (1 - 1 / 10 ^ 7) * (D * B) < N * A := by
      by_contra hc
      push Not at hc
      have := mul_le_mul_of_nonneg_left hc hD7.le
      nlinarith
    have e : x * N / D * (A / B) - x = x * ((N * A - D * B) / (D * B)) := by field_simp
    have hDB : 0 < D * B := by positivity
    rw [e, abs_mul, abs_of_pos h0, abs_div, abs_of_pos hDB, mul_comm (1 / 10 ^ 7)]
    apply mul_le_mul_of_nonneg_left _ h0.le
    rw [div_le_iff₀ hDB, abs_le]
    constructor <;> linarith

/-- C79.  The chemical potential for which the quadrature returns `y` is found to five digits, in the part
of the first piece.  (For all arguments see `inverse_accurate` in Props/InverseAll.) -/
theorem inverse_accurate_first (y : ℝ) (h0 : 0 < y) (h1 : y * Gamma (1 / 2 + 1) < 1.22) :
    |fermiIntegral (inverseFermi12 y) (1 / 2) - y| ≤ 2 / 10 ^ 6 * y := by
  have hG := norm_pos
  rw [inverse_eq, scaled0 _ h1]
  obtain ⟨e1, e2⟩ := piece0_composite _ (mul_pos h0 hG) h1.le
  have acc := accurate12 _ e1
  have hF := fermiIntegral_pos (1 / 2) (by norm_num) (fukushimaPiece0 (y * Gamma (1 / 2 + 1)))
  generalize fermiIntegral (fukushimaPiece0 (y * Gamma (1 / 2 + 1))) (1 / 2) = F at *
  generalize exp (fukushimaPiece0 (y * Gamma (1 / 2 + 1))) *
    rational c12.a c12.b (exp (fukushimaPiece0 (y * Gamma (1 / 2 + 1)))) = v at *
  obtain ⟨a1, a2⟩ := abs_le.1 e2
  obtain ⟨a3, a4⟩ := abs_le.1 acc
  have b1 : v / Gamma (1 / 2 + 1) ≤ (1 + 1 / 10 ^ 7) * y := by
    rw [div_le_iff₀ hG]; linarith
  have b2 : (1 - 1 / 10 ^ 7) * y ≤ v / Gamma (1 / 2 + 1) := by
    rw [le_div_iff₀ hG]; linarith
  rw [abs_le]; constructor <;> linarith

/-- The norm is about 0.886. -/
theorem norm_bounds : (0.8862 : ℝ) < Gamma (1 / 2 + 1) ∧ Gamma (1 / 2 + 1) < 0.8863 := by
  rw [Gamma_12]
  obtain ⟨h1, h2⟩ := sqrt_pi_bounds
  norm_num at h1 h2 ⊢
  constructor <;> linarith

example : |fermiIntegral (inverseFermi12 (5 / 4)) (1 / 2) - 5 / 4| ≤ 2 / 10 ^ 6 * (5 / 4) :=
  inverse_accurate_first _ (by norm_num) (by have := norm_bounds.2; norm_num at this ⊢; linarith)

/-- C79.  For a temperature above 0.67 Fermi energies, the reduced chemical potential of the dielectric
function (free_free.py 1003) gives the density it is computed for, to five digits. -/
theorem dandrea_density_warm (θ : ℝ) (h : 0.67 ≤ θ) :
    |(∫ t in Set.Ioi (0 : ℝ), t ^ (1 / 2 : ℝ) /
        (exp (t - inverseFermi12 ((2 / 3 * θ ^ (-3 / 2 : ℝ)) / Gamma (1 / 2 + 1))) + 1)) -
      2 / 3 * θ ^ (-3 / 2 : ℝ)| ≤ 2 / 10 ^ 6 * (2 / 3 * θ ^ (-3 / 2 : ℝ)) := by
  have hθ : 0 < θ := by norm_num at h; linarith
  have hp := rpow_pos_of_pos hθ (-3 / 2)
  have hG := norm_pos
  have hle : θ ^ (-3 / 2 : ℝ) ≤ 1.8295 := by
    have h1 : θ ^ (-3 / 2 : ℝ) ≤ (0.67 : ℝ) ^ (-3 / 2 : ℝ) :=
      rpow_le_rpow_of_nonpos (by norm_num) h (by norm_num)
    have h2 : ((0.67 : ℝ) ^ (-3 / 2 : ℝ)) ^ 2 = 1 / 0.67 ^ 3 := by
      rw [← rpow_natCast, ← rpow_mul (by norm_num),
        show (-3 / 2 * ((2 : ℕ) : ℝ)) = -((3 : ℕ) : ℝ) by norm_num, rpow_neg (by norm_num), rpow_natCast, one_div]
    refine h1.trans ?_
    apply le_of_pow_le_pow_left₀ (n := 2) (by norm_num) (by norm_num)
    rw [h2]; norm_num
  have key := inverse_accurate_first ((2 / 3 * θ ^ (-3 / 2 : ℝ)) / Gamma (1 / 2 + 1)) (by positivity)
    (by rw [div_mul_cancel₀ _ hG.ne']; norm_num at hle ⊢; linarith)
  unfold fermiIntegral at key
  rw [← sub_div, abs_div, abs_of_pos hG, mul_div_assoc'] at key
  exact (div_le_div_iff_of_pos_right hG).1 key

/-! ### The degenerate limit -/

theorem piece5_ratio : Tendsto (fun x : ℝ => fukushimaPiece5 x / x ^ (2 / 3 : ℝ)) atTop
    (𝓝 √(rational n5 d5 1 / 111.632691)) := by
  have hz : Tendsto (fun x : ℝ => x ^ (-4 / 3 : ℝ)) atTop (𝓝 0) := by
    have := tendsto_rpow_neg_atTop (y := 4 / 3) (by norm_num)
    simpa [neg_div] using this
  have hu : Tendsto (fun x : ℝ => 1 - 111.632691 * x ^ (-4 / 3 : ℝ)) atTop (𝓝 1) := by
    have := (hz.const_mul 111.632691).const_sub 1
    simpa using this
  have hr : Tendsto (fun x : ℝ => rational n5 d5 (1 - 111.632691 * x ^ (-4 / 3 : ℝ))) atTop
      (𝓝 (rational n5 d5 1)) :=
    ((hasDerivAt_quot n5 d5 1 (by simp only [d5, ev]; norm_num)).continuousAt.tendsto).comp hu
  have hs := (Real.continuous_sqrt.tendsto _).comp (hr.div_const 111.632691)
  refine hs.congr' ?_
  filter_upwards [eventually_ge_atTop 117] with x hx
  have hx0 : 0 < x := by linarith
  have e : x ^ (-4 / 3 : ℝ) * (x ^ (2 / 3 : ℝ)) ^ 2 = 1 := by
    rw [← rpow_natCast, ← rpow_mul hx0.le, ← rpow_add hx0]
    norm_num
  have hp := rpow_pos_of_pos hx0 (2 / 3)
  rw [piece5_eq, Function.comp_apply, eq_div_iff hp.ne', ← Real.sqrt_sq hp.le,
    ← Real.sqrt_mul' _ (by positivity)]
  congr 1
  have hq := rpow_pos_of_pos hx0 (-4 / 3)
  generalize x ^ (-4 / 3 : ℝ) = z at *
  generalize x ^ (2 / 3 : ℝ) = w at *
  have : w ^ 2 = 1 / z := by rw [eq_div_iff hq.ne', mul_comm]; exact e
  rw [this]
  generalize rational n5 d5 (1 - 111.632691 * z) = R
  norm_num
  field_simp

theorem fermi_scaled (n : ℝ) (hn : -1 < n) :
    Tendsto (fun x => fermiIntegral x n / x ^ (n + 1)) atTop (𝓝 (1 / (n + 1) / Gamma (n + 1))) := by
  have h := (scaled_tendsto n hn).div_const (Gamma (n + 1))
  refine h.congr' ?_
  filter_upwards [eventually_gt_atTop 0] with x hx
  have hp := rpow_pos_of_pos hx (n + 1)
  unfold fermiIntegral
  rw [scaled_integral n x hx]
  field_simp

/-- C79.  In the degenerate limit the quadrature of the approximate inverse returns the argument, to eight
digits. -/
theorem inverse_degenerate :
    ∃ L, |L - 1| ≤ 1 / 10 ^ 8 ∧
      Tendsto (fun y => fermiIntegral (inverseFermi12 y) (1 / 2) / y) atTop (𝓝 L) := by
  have hG := norm_pos
  have hx : Tendsto (fun y : ℝ => y * Gamma (1 / 2 + 1)) atTop atTop := tendsto_id.atTop_mul_const hG
  have hr := piece5_ratio.comp hx
  set K := rational n5 d5 1 / 111.632691 with hK
  have hKv : K = ((evQ n5 1 / evQ d5 1 / 111.632691 : ℚ) : ℝ) := by
    rw [hK, rational_ev]; push_cast [evQ_eq]; norm_num
  have hKb : (1.71707137 : ℝ) ≤ K ∧ K ≤ 1.71707138 := by
    rw [hKv]
    constructor
    · rw [show (1.71707137 : ℝ) = ((1.71707137 : ℚ) : ℝ) by norm_num]; exact Rat.cast_le.2 (by decide +kernel)
    · rw [show (1.71707138 : ℝ) = ((1.71707138 : ℚ) : ℝ) by norm_num]; exact Rat.cast_le.2 (by decide +kernel)
  have hK0 : 0 < K := by have := hKb.1; norm_num at this; linarith
  have hsK : 0 < √K := Real.sqrt_pos.2 hK0
  -- the inverse grows
  have hinv : Tendsto inverseFermi12 atTop atTop := by
    have h1 : Tendsto (fun x : ℝ => fukushimaPiece5 x / x ^ (2 / 3 : ℝ) * x ^ (2 / 3 : ℝ)) atTop atTop :=
      piece5_ratio.pos_mul_atTop hsK (tendsto_rpow_atTop (by norm_num))
    have h2 := h1.comp hx
    refine h2.congr' ?_
    filter_upwards [hx.eventually_ge_atTop 117] with y hy
    rw [inverse_eq, scaled5 _ hy, Function.comp_apply,
      div_mul_cancel₀ _ (rpow_pos_of_pos (by linarith) _).ne']
  have hF := (fermi_scaled (1 / 2) (by norm_num)).comp hinv
  have hr32 := (hr.rpow_const (p := 3 / 2) (Or.inl hsK.ne')).mul_const (Gamma (1 / 2 + 1))
  have hm := hF.mul hr32
  refine ⟨1 / (1 / 2 + 1) / Gamma (1 / 2 + 1) * (√K ^ (3 / 2 : ℝ) * Gamma (1 / 2 + 1)), ?_, ?_⟩
  · have e : 1 / (1 / 2 + 1) / Gamma (1 / 2 + 1) * (√K ^ (3 / 2 : ℝ) * Gamma (1 / 2 + 1)) =
        2 / 3 * √K ^ (3 / 2 : ℝ) := by field_simp; norm_num
    rw [e]
    have e4 : (√K ^ (3 / 2 : ℝ)) ^ 4 = K ^ 3 := by
      rw [← rpow_natCast, ← rpow_mul hsK.le, show (3 / 2 * ((4 : ℕ) : ℝ)) = ((6 : ℕ) : ℝ) by norm_num,
        rpow_natCast, show (6 : ℕ) = 2 * 3 from rfl, pow_mul, Real.sq_sqrt hK0.le]
    have hpos : 0 < √K ^ (3 / 2 : ℝ) := rpow_pos_of_pos hsK _
    generalize √K ^ (3 / 2 : ℝ) = z at *
    have k1 : (1.71707137 : ℝ) ^ 3 ≤ K ^ 3 := pow_le_pow_left₀ (by norm_num) hKb.1 3
    have k2 : K ^ 3 ≤ (1.71707138 : ℝ) ^ 3 := pow_le_pow_left₀ hK0.le hKb.2 3
    have z1 : (3 / 2 * (1 - 1 / 10 ^ 8) : ℝ) ≤ z := by
      apply le_of_pow_le_pow_left₀ (n := 4) (by norm_num) hpos.le
      rw [e4]; refine le_trans ?_ k1; norm_num
    have z2 : z ≤ (3 / 2 * (1 + 1 / 10 ^ 8) : ℝ) := by
      apply le_of_pow_le_pow_left₀ (n := 4) (by norm_num) (by norm_num)
      rw [e4]; refine k2.trans ?_; norm_num
    rw [abs_le]; constructor <;> linarith
  · refine hm.congr' ?_
    filter_upwards [hx.eventually_ge_atTop 117, hinv.eventually_gt_atTop 0] with y hy hpos
    have hx0 : 0 < y * Gamma (1 / 2 + 1) := by linarith
    have hy0 : 0 < y := pos_of_mul_pos_left hx0 hG.le
    have hw := rpow_pos_of_pos hx0 (2 / 3)
    simp only [Function.comp_apply]
    rw [← scaled5 _ hy, ← inverse_eq, div_rpow hpos.le hw.le, ← rpow_mul hx0.le,
      show (2 / 3 * (3 / 2) : ℝ) = 1 by norm_num, rpow_one, show (1 / 2 + 1 : ℝ) = 3 / 2 by norm_num]
    rw [show (1 / 2 + 1 : ℝ) = 3 / 2 by norm_num] at hG
    have hv := rpow_pos_of_pos hpos (3 / 2)
    generalize Gamma (3 / 2) = g at *
    field_simp

/-! ### The other inverse -/

/-- The Fermi integral is below the one of a classical gas. -/
theorem fermiIntegral_lt_exp (n : ℝ) (hn : -1 < n) (x : ℝ) : fermiIntegral x n ≤ exp x := by
  have hG : 0 < Gamma (n + 1) := Gamma_pos_of_pos (by linarith)
  unfold fermiIntegral
  rw [div_le_iff₀ hG, Gamma_eq_integral (by linarith), ← integral_const_mul]
  have hi := term_integrable n hn 1 0
  simp only [zero_add, pow_one, one_mul] at hi
  apply setIntegral_mono_on (integrand_integrable n hn x) _ measurableSet_Ioi
  · intro t ht
    have ht' : (0 : ℝ) < t := ht
    have hp := rpow_pos_of_pos ht' n
    rw [add_sub_cancel_right, div_eq_mul_inv, show exp x * (exp (-t) * t ^ n) = t ^ n * (exp x * exp (-t)) by ring]
    apply mul_le_mul_of_nonneg_left _ hp.le
    rw [← exp_add, inv_le_comm₀ (by positivity) (exp_pos _), ← exp_neg]
    have : exp (-(x + -t)) = exp (t - x) := by congr 1; ring
    rw [this]; linarith
  · rw [add_sub_cancel_right]
    have := hi.const_mul (exp x)
    refine this.congr (Eventually.of_forall fun t => ?_)
    simp only []; ring

/-- C79 is false for the other inverse: for all small arguments, the quadrature of its result is below nine
tenths of the argument.  The norm is contained twice in the argument of the logarithm. -/
theorem inverse_antia_too_small (y : ℝ) (h0 : 0 < y) (h1 : y ≤ 1 / 25) :
    fermiIntegral (inverseFermi12Antia y) (1 / 2) < 9 / 10 * y := by
  have hG := norm_pos
  have g2 : Gamma (1 / 2 + 1) < 8863 / 10000 := by have := norm_bounds.2; norm_num at this ⊢; linarith
  refine (fermiIntegral_lt_exp (1 / 2) (by norm_num) _).trans_lt ?_
  unfold inverseFermi12Antia inverseX
  simp only []
  have hx0 : 0 < y * Gamma (1 / 2 + 1) := mul_pos h0 hG
  have hx1 : y * Gamma (1 / 2 + 1) ≤ 1 / 28 := by nlinarith
  rw [if_pos (by nlinarith)]
  rw [rational_ev]
  have hR : 0 < ev ci12.a (y * Gamma (1 / 2 + 1)) ∧ 0 < ev ci12.b (y * Gamma (1 / 2 + 1)) ∧
      ev ci12.a (y * Gamma (1 / 2 + 1)) < 1.1449 * ev ci12.b (y * Gamma (1 / 2 + 1)) := by
    generalize y * Gamma (1 / 2 + 1) = x at *
    simp only [ci12, ev]
    norm_num
    refine ⟨by positivity, ?_, ?_⟩
    · nlinarith [mul_pos hx0 hx0, mul_pos hx0 (mul_pos hx0 hx0)]
    · nlinarith [mul_pos hx0 hx0, mul_pos hx0 (mul_pos hx0 hx0), mul_nonneg hx0.le (sub_nonneg.2 hx1),
        mul_nonneg (mul_pos hx0 hx0).le (sub_nonneg.2 hx1),
        mul_nonneg (mul_pos hx0 (mul_pos hx0 hx0)).le (sub_nonneg.2 hx1)]
  obtain ⟨ra, rb, rc⟩ := hR
  have hq : ev ci12.a (y * Gamma (1 / 2 + 1)) / ev ci12.b (y * Gamma (1 / 2 + 1)) < 1.1449 := by
    rw [div_lt_iff₀ rb]; exact rc
  have hq0 : 0 < ev ci12.a (y * Gamma (1 / 2 + 1)) / ev ci12.b (y * Gamma (1 / 2 + 1)) := by positivity
  generalize ev ci12.a (y * Gamma (1 / 2 + 1)) / ev ci12.b (y * Gamma (1 / 2 + 1)) = Q at *
  rw [exp_log (by positivity)]
  generalize Gamma (1 / 2 + 1) = g at *
  have e1 : g * g < 0.7856 := by norm_num; nlinarith
  have e2 : g * g * Q < 0.7856 * 1.1449 := mul_lt_mul'' e1 hq (by positivity) hq0.le
  norm_num at e2
  have := mul_lt_mul_of_pos_left e2 h0
  nlinarith

/-- The first inverse is not, there. -/
example : fermiIntegral (inverseFermi12Antia (1 / 100)) (1 / 2) < 9 / 10 * (1 / 100) ∧
    9 / 10 * (1 / 100) < fermiIntegral (inverseFermi12 (1 / 100)) (1 / 2) := by
  refine ⟨inverse_antia_too_small _ (by norm_num) (by norm_num), ?_⟩
  have := (abs_le.1 (inverse_accurate_first (1 / 100) (by norm_num)
    (by have := norm_bounds.2; norm_num at this ⊢; linarith))).1
  linarith

end Verif.FermiInt
