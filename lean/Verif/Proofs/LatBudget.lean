import Mathlib.Analysis.SpecialFunctions.Trigonometric.Inverse

/-!
# Change of latitude along a great circle

A great circle whose highest point has sine of latitude `A` is at latitude `arcsin (A * cos x)` at angle `x` from it.
-/

namespace Verif

/-- Half the sum and half the difference of two latitudes. -/
theorem lat_halves {A : ℝ} (h0 : 0 ≤ A) (h1 : A ≤ 1) (x y : ℝ) {u v : ℝ} (hu : u = Real.arcsin (A * Real.cos x)) (hv : v = Real.arcsin (A * Real.cos y)) :
    Real.sin ((u + v) / 2) * Real.cos ((u - v) / 2) = A * (Real.cos ((x + y) / 2) * Real.cos ((y - x) / 2)) ∧
    Real.cos ((u + v) / 2) * Real.sin ((u - v) / 2) = A * (Real.sin ((x + y) / 2) * Real.sin ((y - x) / 2)) ∧
    |(u + v) / 2| + |(u - v) / 2| ≤ Real.pi / 2 := by
  have b : ∀ t : ℝ, -1 ≤ A * Real.cos t ∧ A * Real.cos t ≤ 1 := by
    intro t
    have := abs_le.1 (Real.abs_cos_le_one t)
    constructor <;> nlinarith
  have su : Real.sin u = A * Real.cos x := by rw [hu]; exact Real.sin_arcsin (b x).1 (b x).2
  have sv : Real.sin v = A * Real.cos y := by rw [hv]; exact Real.sin_arcsin (b y).1 (b y).2
  have eu : Real.sin u = Real.sin ((u + v) / 2) * Real.cos ((u - v) / 2) + Real.cos ((u + v) / 2) * Real.sin ((u - v) / 2) := by
    rw [← Real.sin_add]; congr 1; ring
  have ev : Real.sin v = Real.sin ((u + v) / 2) * Real.cos ((u - v) / 2) - Real.cos ((u + v) / 2) * Real.sin ((u - v) / 2) := by
    rw [← Real.sin_sub]; congr 1; ring
  have ex : Real.cos x = Real.cos ((x + y) / 2) * Real.cos ((y - x) / 2) + Real.sin ((x + y) / 2) * Real.sin ((y - x) / 2) := by
    rw [← Real.cos_sub]; congr 1; ring
  have ey : Real.cos y = Real.cos ((x + y) / 2) * Real.cos ((y - x) / 2) - Real.sin ((x + y) / 2) * Real.sin ((y - x) / 2) := by
    rw [← Real.cos_add]; congr 1; ring
  rw [eu, ex] at su
  rw [ev, ey] at sv
  refine ⟨by linarith, by linarith, ?_⟩
  have u1 := Real.neg_pi_div_two_le_arcsin (A * Real.cos x)
  have u2 := Real.arcsin_le_pi_div_two (A * Real.cos x)
  have v1 := Real.neg_pi_div_two_le_arcsin (A * Real.cos y)
  have v2 := Real.arcsin_le_pi_div_two (A * Real.cos y)
  rw [← hu] at u1 u2
  rw [← hv] at v1 v2
  rcases abs_cases ((u + v) / 2) with ⟨e1, _⟩ | ⟨e1, _⟩ <;> rcases abs_cases ((u - v) / 2) with ⟨e2, _⟩ | ⟨e2, _⟩ <;> rw [e1, e2] <;> linarith

theorem sin_abs_sq (x : ℝ) : Real.sin |x| ^ 2 = Real.sin x ^ 2 := by
  rcases abs_choice x with h | h <;> rw [h]
  rw [Real.sin_neg, neg_sq]

theorem sin_sq_le_cos_sq {M N : ℝ} (h : |M| + |N| ≤ Real.pi / 2) : Real.sin N ^ 2 ≤ Real.cos M ^ 2 := by
  rw [← sin_abs_sq N, ← Real.cos_abs M]
  have h1 := abs_nonneg M
  have h2 := abs_nonneg N
  have hp := Real.pi_pos
  have : Real.sin |N| ≤ Real.cos |M| := by
    rw [← Real.sin_pi_div_two_sub]
    exact Real.sin_le_sin_of_le_of_le_pi_div_two (by linarith) (by linarith) (by linarith)
  have h3 := Real.sin_nonneg_of_nonneg_of_le_pi h2 (by linarith)
  nlinarith

/-- The latitude changes by at most this much between two points of the great circle. -/
theorem lat_change {A : ℝ} (h0 : 0 ≤ A) (h1 : A ≤ 1) (x y : ℝ) {u v : ℝ} (hu : u = Real.arcsin (A * Real.cos x)) (hv : v = Real.arcsin (A * Real.cos y)) :
    Real.sin ((u - v) / 2) ^ 2 ≤ A ^ 2 * Real.sin ((y - x) / 2) ^ 2 := by
  obtain ⟨e1, e2, e3⟩ := lat_halves h0 h1 x y hu hv
  have k := sin_sq_le_cos_sq e3
  have sM := Real.sin_sq_add_cos_sq ((u + v) / 2)
  have sN := Real.sin_sq_add_cos_sq ((u - v) / 2)
  have sc := Real.sin_sq_add_cos_sq ((x + y) / 2)
  have sl := Real.sin_sq_add_cos_sq ((y - x) / 2)
  generalize (u + v) / 2 = M at *
  generalize (u - v) / 2 = N at *
  generalize (x + y) / 2 = c at *
  generalize (y - x) / 2 = l at *
  have p1 : (1 - Real.cos M ^ 2) * (1 - Real.sin N ^ 2) = A ^ 2 * Real.cos c ^ 2 * (1 - Real.sin l ^ 2) := by
    rw [show 1 - Real.cos M ^ 2 = Real.sin M ^ 2 by linarith, show 1 - Real.sin N ^ 2 = Real.cos N ^ 2 by linarith, show 1 - Real.sin l ^ 2 = Real.cos l ^ 2 by linarith]
    calc _ = (Real.sin M * Real.cos N) ^ 2 := by ring
      _ = _ := by rw [e1]; ring
  have p2 : Real.cos M ^ 2 * Real.sin N ^ 2 = A ^ 2 * (1 - Real.cos c ^ 2) * Real.sin l ^ 2 := by
    rw [show 1 - Real.cos c ^ 2 = Real.sin c ^ 2 by linarith]
    calc _ = (Real.cos M * Real.sin N) ^ 2 := by ring
      _ = _ := by rw [e2]; ring
  have hX : 0 ≤ Real.cos c ^ 2 := sq_nonneg _
  have hS : 0 ≤ Real.sin l ^ 2 := sq_nonneg _
  generalize Real.sin N ^ 2 = y at *
  generalize Real.cos M ^ 2 = y' at *
  generalize Real.cos c ^ 2 = X at *
  generalize Real.sin l ^ 2 = S at *
  by_contra hc
  push Not at hc
  have pos : 0 < (A ^ 2 * S - y) * (A ^ 2 * S - y') := mul_pos_of_neg_of_neg (by linarith) (by linarith)
  have e : (A ^ 2 * S - y) * (A ^ 2 * S - y') = A ^ 2 * S * X * (A ^ 2 - 1) := by linear_combination A ^ 2 * S * p1 + (1 - A ^ 2 * S) * p2
  have : A ^ 2 * S * X * (A ^ 2 - 1) ≤ 0 := mul_nonpos_of_nonneg_of_nonpos (by positivity) (by nlinarith)
  linarith

theorem lat_change_le {A : ℝ} (h0 : 0 ≤ A) (h1 : A ≤ 1) {x y : ℝ} (h2 : x ≤ y) (h3 : y - x ≤ Real.pi) :
    |Real.arcsin (A * Real.cos x) - Real.arcsin (A * Real.cos y)| ≤ 2 * Real.arcsin (A * Real.sin ((y - x) / 2)) := by
  have hp := Real.pi_pos
  have k := lat_change h0 h1 x y rfl rfl
  have u1 := Real.neg_pi_div_two_le_arcsin (A * Real.cos x)
  have u2 := Real.arcsin_le_pi_div_two (A * Real.cos x)
  have v1 := Real.neg_pi_div_two_le_arcsin (A * Real.cos y)
  have v2 := Real.arcsin_le_pi_div_two (A * Real.cos y)
  generalize Real.arcsin (A * Real.cos x) = u at *
  generalize Real.arcsin (A * Real.cos y) = v at *
  have s0 : 0 ≤ Real.sin ((y - x) / 2) := Real.sin_nonneg_of_nonneg_of_le_pi (by linarith) (by linarith)
  have e : |u - v| = 2 * |(u - v) / 2| := by rw [abs_div, abs_of_pos (by norm_num : (0 : ℝ) < 2)]; ring
  have b : |(u - v) / 2| ≤ Real.pi / 2 := abs_le.2 ⟨by linarith, by linarith⟩
  rw [e]
  have : |(u - v) / 2| ≤ Real.arcsin (A * Real.sin ((y - x) / 2)) := by
    rw [← sin_abs_sq ((u - v) / 2)] at k
    have c0 := Real.sin_nonneg_of_nonneg_of_le_pi (abs_nonneg ((u - v) / 2)) (by linarith)
    rw [Real.le_arcsin_iff_sin_le' ⟨by linarith [abs_nonneg ((u - v) / 2)], b⟩]
    rw [← mul_pow] at k
    exact le_of_sq_le_sq k (by positivity)
  linarith

/-- The smaller roots of two quadratic equations. -/
theorem root_le {w w' r r' C X B : ℝ} (hA : B ≤ 1) (hA0 : 0 ≤ B) (hC0 : 0 ≤ C) (hC1 : C ≤ 1) (hX : C ≤ X) (k : w ≤ w') (k0 : r ≤ r')
    (m1 : (1 - w) * (1 - w') = B * (1 - X) * (1 - C)) (m2 : w * w' = B * X * C) (n1 : (1 - r) * (1 - r') = B * (1 - C) * (1 - C))
    (n2 : r * r' = B * C * C) : r ≤ w := by
  by_contra hc
  push Not at hc
  have hr : r ≤ C := by
    by_contra hrc
    push Not at hrc
    have e : (C - r) * (C - r') = -(C * (1 - C) * (1 - B)) := by linear_combination C * n1 + (1 - C) * n2
    have : 0 < (C - r) * (C - r') := mul_pos_of_neg_of_neg (by linarith) (by linarith)
    have : 0 ≤ C * (1 - C) * (1 - B) := mul_nonneg (mul_nonneg hC0 (by linarith)) (by linarith)
    linarith
  have e : (r - w) * (r - w') = B * (X - C) * (C - r) := by linear_combination r * m1 + (1 - r) * m2 - r * n1 - (1 - r) * n2
  have : 0 ≤ B * (X - C) * (C - r) := mul_nonneg (mul_nonneg hA0 (by linarith)) (by linarith)
  have hrw : w' ≤ r := by
    by_contra hx
    push Not at hx
    have := mul_neg_of_pos_of_neg (show 0 < r - w by linarith) (show r - w' < 0 by linarith)
    linarith
  have s1 : r + r' = 1 + B * (C + C - 1) := by linear_combination n2 - n1
  have s2 : w + w' = 1 + B * (X + C - 1) := by linear_combination m2 - m1
  have : 0 ≤ B * (X - C) := mul_nonneg hA0 (by linarith)
  linarith

/-- The way up to the highest point and down again is longest, for a given distance, if one end is the highest point. -/
theorem lat_peak {A : ℝ} (h0 : 0 ≤ A) (h1 : A ≤ 1) {α β : ℝ} (a0 : 0 ≤ α) (b0 : 0 ≤ β) (h : α + β ≤ Real.pi) :
    2 * Real.arcsin A - Real.arcsin (A * Real.cos α) - Real.arcsin (A * Real.cos β) ≤ 2 * Real.arcsin (A * Real.sin ((α + β) / 2)) := by
  have hp := Real.pi_pos
  have T := lat_change_le h0 h1 (x := 0) (y := α + β) (by linarith) (by linarith)
  rw [sub_zero, Real.cos_zero, mul_one] at T
  have T := (abs_le.1 T).2
  suffices hs : (Real.arcsin A + Real.arcsin (A * Real.cos (α + β))) / 2 ≤ (Real.arcsin (A * Real.cos α) + Real.arcsin (A * Real.cos β)) / 2 by linarith
  obtain ⟨e1, e2, e3⟩ := lat_halves h0 h1 (-β) α rfl rfl
  obtain ⟨f1, f2, f3⟩ := lat_halves h0 h1 0 (α + β) (u := Real.arcsin A) (by rw [Real.cos_zero, mul_one]) rfl
  rw [Real.cos_neg, show -β + α = α - β by ring, show α - -β = α + β by ring] at *
  rw [zero_add, sub_zero] at *
  rw [add_comm (Real.arcsin (A * Real.cos α))]
  have k := sin_sq_le_cos_sq (M := (Real.arcsin (A * Real.cos β) - Real.arcsin (A * Real.cos α)) / 2) (N := (Real.arcsin (A * Real.cos β) + Real.arcsin (A * Real.cos α)) / 2) (by linarith)
  have k0 := sin_sq_le_cos_sq (M := (Real.arcsin A - Real.arcsin (A * Real.cos (α + β))) / 2) (N := (Real.arcsin A + Real.arcsin (A * Real.cos (α + β))) / 2) (by linarith)
  have u1 := Real.neg_pi_div_two_le_arcsin (A * Real.cos α)
  have u2 := Real.arcsin_le_pi_div_two (A * Real.cos α)
  have v1 := Real.neg_pi_div_two_le_arcsin (A * Real.cos β)
  have v2 := Real.arcsin_le_pi_div_two (A * Real.cos β)
  have p1 := Real.arcsin_nonneg.2 h0
  have p2 := Real.arcsin_le_pi_div_two A
  have q1 := Real.neg_pi_div_two_le_arcsin (A * Real.cos (α + β))
  have q2 := Real.arcsin_le_pi_div_two (A * Real.cos (α + β))
  generalize Real.arcsin (A * Real.cos α) = u at *
  generalize Real.arcsin (A * Real.cos β) = v at *
  generalize Real.arcsin (A * Real.cos (α + β)) = v0 at *
  generalize Real.arcsin A = P at *
  have cl : 0 ≤ Real.cos ((α + β) / 2) := Real.cos_nonneg_of_neg_pi_div_two_le_of_le (by linarith) (by linarith)
  have cc : Real.cos ((α + β) / 2) ≤ Real.cos ((α - β) / 2) := by
    rw [← Real.cos_abs ((α - β) / 2)]
    refine Real.cos_le_cos_of_nonneg_of_le_pi (abs_nonneg _) (by linarith) (abs_le.2 ⟨by linarith, by linarith⟩)
  have cN : 0 ≤ Real.cos ((v - u) / 2) := Real.cos_nonneg_of_neg_pi_div_two_le_of_le (by linarith) (by linarith)
  have hX : Real.cos ((α + β) / 2) ^ 2 ≤ Real.cos ((α - β) / 2) ^ 2 := pow_le_pow_left₀ cl cc 2
  have sM := Real.sin_sq_add_cos_sq ((v + u) / 2)
  have sN := Real.sin_sq_add_cos_sq ((v - u) / 2)
  have sM0 := Real.sin_sq_add_cos_sq ((P + v0) / 2)
  have sN0 := Real.sin_sq_add_cos_sq ((P - v0) / 2)
  have sc := Real.sin_sq_add_cos_sq ((α - β) / 2)
  have sl := Real.sin_sq_add_cos_sq ((α + β) / 2)
  -- the middle latitudes are not negative
  have hM : 0 ≤ (v + u) / 2 := by
    by_contra hc
    push Not at hc
    have hs : Real.sin ((v + u) / 2) < 0 := Real.sin_neg_of_neg_of_neg_pi_lt hc (by linarith)
    have hcn : 0 < Real.cos ((v - u) / 2) := by
      apply Real.cos_pos_of_mem_Ioo
      have := e3
      rw [abs_of_neg hc] at this
      have := abs_le.1 (show |(v - u) / 2| ≤ Real.pi / 2 + (v + u) / 2 by linarith)
      constructor <;> linarith
    have := mul_neg_of_neg_of_pos hs hcn
    have : 0 ≤ A * (Real.cos ((α - β) / 2) * Real.cos ((α + β) / 2)) := by
      have := cl.trans cc
      positivity
    linarith
  have m1 : (1 - Real.sin ((v + u) / 2) ^ 2) * (1 - Real.cos ((v - u) / 2) ^ 2) = A ^ 2 * (1 - Real.cos ((α - β) / 2) ^ 2) * (1 - Real.cos ((α + β) / 2) ^ 2) := by
    rw [show 1 - Real.sin ((v + u) / 2) ^ 2 = Real.cos ((v + u) / 2) ^ 2 by linarith, show 1 - Real.cos ((v - u) / 2) ^ 2 = Real.sin ((v - u) / 2) ^ 2 by linarith,
      show 1 - Real.cos ((α - β) / 2) ^ 2 = Real.sin ((α - β) / 2) ^ 2 by linarith, show 1 - Real.cos ((α + β) / 2) ^ 2 = Real.sin ((α + β) / 2) ^ 2 by linarith,
      ← mul_pow, e2]
    ring
  have m2 : Real.sin ((v + u) / 2) ^ 2 * Real.cos ((v - u) / 2) ^ 2 = A ^ 2 * Real.cos ((α - β) / 2) ^ 2 * Real.cos ((α + β) / 2) ^ 2 := by
    rw [← mul_pow, e1]
    ring
  have n1 : (1 - Real.sin ((P + v0) / 2) ^ 2) * (1 - Real.cos ((P - v0) / 2) ^ 2) = A ^ 2 * (1 - Real.cos ((α + β) / 2) ^ 2) * (1 - Real.cos ((α + β) / 2) ^ 2) := by
    rw [show 1 - Real.sin ((P + v0) / 2) ^ 2 = Real.cos ((P + v0) / 2) ^ 2 by linarith, show 1 - Real.cos ((P - v0) / 2) ^ 2 = Real.sin ((P - v0) / 2) ^ 2 by linarith,
      show 1 - Real.cos ((α + β) / 2) ^ 2 = Real.sin ((α + β) / 2) ^ 2 by linarith,
      ← mul_pow, f2]
    ring
  have n2 : Real.sin ((P + v0) / 2) ^ 2 * Real.cos ((P - v0) / 2) ^ 2 = A ^ 2 * Real.cos ((α + β) / 2) ^ 2 * Real.cos ((α + β) / 2) ^ 2 := by
    rw [← mul_pow, f1]
    ring
  have hC1 : Real.cos ((α + β) / 2) ^ 2 ≤ 1 := Real.cos_sq_le_one _
  have main : Real.sin ((P + v0) / 2) ^ 2 ≤ Real.sin ((v + u) / 2) ^ 2 := by
    exact root_le (pow_le_one₀ h0 h1) (sq_nonneg A) (sq_nonneg _) hC1 hX k k0 m1 m2 n1 n2
  have s0 : 0 ≤ Real.sin ((v + u) / 2) := Real.sin_nonneg_of_nonneg_of_le_pi hM (by linarith)
  by_contra hc
  push Not at hc
  have s1 : Real.sin ((v + u) / 2) < Real.sin ((P + v0) / 2) := Real.sin_lt_sin_of_lt_of_le_pi_div_two (by linarith) (by linarith) hc
  exact absurd main (not_le.2 (pow_lt_pow_left₀ s1 s0 two_ne_zero))

end Verif
