import Verif.Properties.ChordAngle
import Verif.Proofs.RNE
import Verif.Properties.Predicates

/-!
# Rounding errors of chord angles: C63

The sum of two chord angles, computed with rounding, has a small relative error; the difference a small absolute error.
-/

namespace Verif
open Spec

variable {K : Type} [Field K] [LinearOrder K] [IsStrictOrderedRing K]

/-- One more rounding of a number known with a relative and an absolute error. -/
theorem fl_step {fl : K → K} (h : Rounding fl) {x p k t : K} (hp : 0 ≤ p) (hp64 : p ≤ 64) (hk0 : 0 ≤ k) (hk : k ≤ 10) (ht0 : 0 ≤ t) (ht : t ≤ 1)
    (hx : |x - p| ≤ k / 2 ^ 53 * p + t) :
    |fl x - p| ≤ (k + 101 / 100) / 2 ^ 53 * p + (101 / 100 * t + 1 / 2 ^ 1075) := by
  have hkp : k * p ≤ 10 * p := mul_le_mul_of_nonneg_right hk hp
  have hax : |x| ≤ p + (k / 2 ^ 53 * p + t) := by
    have := abs_add_le (x - p) p
    rw [sub_add_cancel, abs_of_nonneg hp] at this
    linarith
  have e : k / 2 ^ 53 * p = k * p / 2 ^ 53 := by ring
  have hr := h x (hax.trans ((show p + (k / 2 ^ 53 * p + t) ≤ 2 ^ 8 by rw [e]; norm_num at *; linarith).trans
    (pow_le_pow_right₀ (by norm_num) (by norm_num))))
  have := abs_add_le (fl x - x) (x - p)
  rw [sub_add_sub_cancel] at this
  have e2 : (k + 101 / 100) / 2 ^ 53 * p = k * p / 2 ^ 53 + 101 / 100 * p / 2 ^ 53 := by ring
  rw [e2]
  rw [e] at hax hx
  generalize k * p = w at *
  generalize (1 : K) / 2 ^ 1075 = η at *
  norm_num at *
  linarith

theorem sqrt_close {s w r t : K} (hs : 0 ≤ s) (hw : 0 ≤ w) (hr0 : 0 ≤ r) (hr : r ≤ 1) (ht : 0 ≤ t) (h : |s * s - w * w| ≤ r * (w * w) + t * t) :
    |s - w| ≤ r * w + t := by
  rw [abs_le] at h ⊢
  have hrw : 0 ≤ r * w := mul_nonneg hr0 hw
  constructor
  · by_contra hc
    rw [not_le] at hc
    have h1 : s < w - r * w - t := by linarith
    have h2 : s * s ≤ s * (w - r * w - t) := mul_le_mul_of_nonneg_left h1.le hs
    have h3 : s * (w - r * w - t) < (w - r * w - t) * (w - r * w - t) := mul_lt_mul_of_pos_right h1 (by linarith)
    have h4 : t * t ≤ t * (w - r * w) := mul_le_mul_of_nonneg_left (by linarith) ht
    have h5 : (w - r * w) * (w - r * w) ≤ w * (w - r * w) := mul_le_mul_of_nonneg_right (by linarith) (by linarith)
    nlinarith
  · by_contra hc
    rw [not_le] at hc
    have h1 : w + r * w + t < s := by linarith
    have h2 : (w + r * w + t) * (w + r * w + t) < s * s := mul_self_lt_mul_self (by linarith) h1
    have h3 : 0 ≤ r * w * (r * w) := mul_nonneg hrw hrw
    have h4 : 0 ≤ w * t := mul_nonneg hw ht
    have h5 : 0 ≤ r * w * t := mul_nonneg hrw ht
    have h6 : 0 ≤ r * w * w := mul_nonneg hrw hw
    nlinarith

theorem chord_near {fl : K → K} (h : Rounding fl) {a b : K} (ha : 0 ≤ a) (ha4 : a ≤ 4) (hb : 0 ≤ b) (hb4 : b ≤ 4) (hq : fl (1 / 4 * b) = 1 / 4 * b) :
    |ChordAngle.chord fl a b - a * (1 - 1 / 4 * b)| ≤ (202 / 100) / 2 ^ 53 * (a * (1 - 1 / 4 * b)) + 6 * (1 / 2 ^ 1075) := by
  have hη : (0 : K) < 1 / 2 ^ 1075 := by positivity
  have hη1 : (1 : K) / 2 ^ 1075 ≤ 1 / 2 ^ 10 := one_div_le_one_div_of_le (by positivity) (pow_le_pow_right₀ (by norm_num) (by norm_num))
  have hC0 : 0 ≤ 1 - 1 / 4 * b := by linarith
  have hC1 : 1 - 1 / 4 * b ≤ 1 := by linarith
  unfold ChordAngle.chord
  rw [hq]
  have h1 := fl_step h (x := 1 - 1 / 4 * b) (p := 1 - 1 / 4 * b) (k := 0) (t := 0) hC0 (by linarith) le_rfl (by norm_num) le_rfl (by norm_num) (by simp)
  generalize (1 - 1 / 4 * b : K) = C at *
  have hX0 : 0 ≤ a * C := mul_nonneg ha hC0
  have hX4 : a * C ≤ 4 := by nlinarith
  have h2 : |a * fl C - a * C| ≤ (101 / 100) / 2 ^ 53 * (a * C) + 4 * (1 / 2 ^ 1075) := by
    rw [← mul_sub, abs_mul, abs_of_nonneg ha]
    have := mul_le_mul_of_nonneg_left h1 ha
    have e : a * ((0 + 101 / 100) / 2 ^ 53 * C + (101 / 100 * 0 + 1 / 2 ^ 1075)) = (101 / 100) / 2 ^ 53 * (a * C) + a * (1 / 2 ^ 1075) := by ring
    rw [e] at this
    have := mul_le_mul_of_nonneg_right ha4 hη.le
    linarith
  have h3 := fl_step h hX0 (by linarith) (by norm_num) (by norm_num) (by positivity) (by norm_num at *; linarith) h2
  generalize a * C = X at *
  generalize (1 : K) / 2 ^ 1075 = η at *
  norm_num at *
  linarith

theorem prod_rel {x X y Y t : K} (hX : 0 ≤ X) (hX4 : X ≤ 4) (hY : 0 ≤ Y) (hY4 : Y ≤ 4) (ht : 0 ≤ t) (ht1 : t ≤ 1 / 2 ^ 10)
    (hx : |x - X| ≤ (202 / 100) / 2 ^ 53 * X + t) (hy : |y - Y| ≤ (202 / 100) / 2 ^ 53 * Y + t) :
    |x * y - X * Y| ≤ (405 / 100) / 2 ^ 53 * (X * Y) + 9 * t := by
  have e : x * y - X * Y = (x - X) * (y - Y) + (x - X) * Y + X * (y - Y) := by ring
  have h1 := abs_add_le ((x - X) * (y - Y) + (x - X) * Y) (X * (y - Y))
  have h2 := abs_add_le ((x - X) * (y - Y)) ((x - X) * Y)
  rw [e]
  rw [abs_mul, abs_mul, abs_of_nonneg hY] at h2
  rw [abs_mul X, abs_of_nonneg hX] at h1
  have a1 : |x - X| * |y - Y| ≤ ((202 / 100) / 2 ^ 53 * X + t) * ((202 / 100) / 2 ^ 53 * Y + t) := mul_le_mul hx hy (abs_nonneg _) ((abs_nonneg _).trans hx)
  have a2 := mul_le_mul_of_nonneg_right hx hY
  have a3 := mul_le_mul_of_nonneg_left hy hX
  have b1 : t * X ≤ t * 4 := mul_le_mul_of_nonneg_left hX4 ht
  have b2 : t * Y ≤ t * 4 := mul_le_mul_of_nonneg_left hY4 ht
  have b3 : t * t ≤ t * (1 / 2 ^ 10) := mul_le_mul_of_nonneg_left ht1 ht
  have b4 : 0 ≤ X * Y := mul_nonneg hX hY
  have c1 : ((202 / 100) / 2 ^ 53 * X + t) * ((202 / 100) / 2 ^ 53 * Y + t) = (202 / 100) / 2 ^ 53 * ((202 / 100) / 2 ^ 53) * (X * Y) + (202 / 100) / 2 ^ 53 * (t * X) + (202 / 100) / 2 ^ 53 * (t * Y) + t * t := by ring
  have c2 : ((202 / 100) / 2 ^ 53 * X + t) * Y = (202 / 100) / 2 ^ 53 * (X * Y) + t * Y := by ring
  have c3 : X * ((202 / 100) / 2 ^ 53 * Y + t) = (202 / 100) / 2 ^ 53 * (X * Y) + t * X := by ring
  rw [c1] at a1; rw [c2] at a2; rw [c3] at a3
  clear c1 c2 c3 e hx hy hX hX4 hY hY4
  generalize |x - X| * |y - Y| = m1 at *
  generalize |x - X| * Y = m2 at *
  generalize X * |y - Y| = m3 at *
  generalize X * Y = P at *
  generalize t * X = q1 at *
  generalize t * Y = q2 at *
  generalize t * t = q3 at *
  norm_num at *
  linarith

set_option maxHeartbeats 1000000 in
/-- The two sums of the formulas, computed with rounding. -/
theorem chord_sums {fl sqrt : K → K} (h : Rounding fl) (hm : Monotone fl) (h0 : fl 0 = 0) (h1 : fl 1 = 1) (hs : IsSqrt sqrt) {a b : K}
    (ha : 0 ≤ a) (ha4 : a ≤ 4) (hqa : fl (1 / 4 * a) = 1 / 4 * a) (hb : 0 ≤ b) (hb4 : b ≤ 4) (hqb : fl (1 / 4 * b) = 1 / 4 * b) :
    let X := a * (1 - 1 / 4 * b)
    let Y := b * (1 - 1 / 4 * a)
    |fl (ChordAngle.chord fl a b + ChordAngle.chord fl b a) - (X + Y)| ≤ (303 / 100) / 2 ^ 53 * (X + Y) + 1 / 2 ^ 530 ∧
    |fl (2 * fl (sqrt (fl (ChordAngle.chord fl a b * ChordAngle.chord fl b a)))) - 2 * sqrt (X * Y)| ≤ (708 / 100) / 2 ^ 53 * (2 * sqrt (X * Y)) + 3 * (1 / 2 ^ 530) ∧
    0 ≤ X ∧ X ≤ 4 ∧ 0 ≤ Y ∧ Y ≤ 4 ∧ sqrt (X * Y) ≤ 4 := by
  dsimp only
  have hx := chord_near h ha ha4 hb hb4 hqb
  have hy := chord_near h hb hb4 ha ha4 hqa
  have px := chord_nonneg hm h0 h1 ha hb4
  have py := chord_nonneg hm h0 h1 hb ha4
  have hX0 : 0 ≤ a * (1 - 1 / 4 * b) := mul_nonneg ha (by linarith)
  have hY0 : 0 ≤ b * (1 - 1 / 4 * a) := mul_nonneg hb (by linarith)
  have hX4 : a * (1 - 1 / 4 * b) ≤ 4 := by nlinarith
  have hY4 : b * (1 - 1 / 4 * a) ≤ 4 := by nlinarith
  generalize ChordAngle.chord fl a b = x at *
  generalize ChordAngle.chord fl b a = y at *
  generalize a * (1 - 1 / 4 * b) = X at *
  generalize b * (1 - 1 / 4 * a) = Y at *
  have hη : (0 : K) < 1 / 2 ^ 1075 := by positivity
  have hη1 : (1 : K) / 2 ^ 1075 ≤ 1 / 2 ^ 15 * (1 / 2 ^ 530 * (1 / 2 ^ 530)) := by
    rw [one_div_mul_one_div, one_div_mul_one_div, ← pow_add, ← pow_add]
  have hτ : (0 : K) < 1 / 2 ^ 530 := by positivity
  have hτ1 : (1 : K) / 2 ^ 530 ≤ 1 / 2 ^ 20 := one_div_le_one_div_of_le (by positivity) (pow_le_pow_right₀ (by norm_num) (by norm_num))
  generalize (1 : K) / 2 ^ 530 = τ at *
  have hττ : τ * τ ≤ τ * (1 / 2 ^ 20) := mul_le_mul_of_nonneg_left hτ1 hτ.le
  have hp := prod_rel hX0 hX4 hY0 hY4 (by positivity) (by generalize (1 : K) / 2 ^ 1075 = η at *; norm_num at *; linarith) hx hy
  have hP0 := mul_nonneg hX0 hY0
  have hP16 : X * Y ≤ 16 := by nlinarith
  have hp2 := fl_step h hP0 (by linarith) (by norm_num) (by norm_num) (by positivity) (by generalize (1 : K) / 2 ^ 1075 = η at *; norm_num at *; linarith) hp
  have pp : 0 ≤ fl (x * y) := by
    have := hm (mul_nonneg px py)
    rwa [h0] at this
  obtain ⟨w1, w2⟩ := hs _ hP0
  obtain ⟨s1, s2⟩ := hs _ pp
  have hW4 : sqrt (X * Y) ≤ 4 := by nlinarith
  have hsq := sqrt_close (r := (506 / 100) / 2 ^ 53) (t := τ) s1 w1 (by norm_num) (by norm_num) hτ.le (by
    rw [s2, w2]
    refine hp2.trans ?_
    generalize τ * τ = q at *
    generalize (1 : K) / 2 ^ 1075 = η at *
    generalize X * Y = P at *
    norm_num at *
    linarith)
  have hs1 := fl_step h w1 (by linarith) (by norm_num) (by norm_num) hτ.le (by norm_num at *; linarith) hsq
  have hs2 : |2 * fl (sqrt (fl (x * y))) - 2 * sqrt (X * Y)| ≤ (506 / 100 + 101 / 100) / 2 ^ 53 * (2 * sqrt (X * Y)) + 5 / 2 * τ := by
    rw [← mul_sub, abs_mul, abs_of_pos (by norm_num : (0 : K) < 2)]
    generalize τ * τ = q at *
    generalize (1 : K) / 2 ^ 1075 = η at *
    generalize |fl (sqrt (fl (x * y))) - sqrt (X * Y)| = D at *
    generalize sqrt (X * Y) = W at *
    norm_num at *
    linarith
  have hs3 := fl_step h (by linarith) (by linarith) (by norm_num) (by norm_num) (by positivity) (by norm_num at *; linarith) hs2
  have hsum : |x + y - (X + Y)| ≤ (202 / 100) / 2 ^ 53 * (X + Y) + 12 * (1 / 2 ^ 1075) := by
    have := abs_add_le (x - X) (y - Y)
    rw [show x - X + (y - Y) = x + y - (X + Y) by ring] at this
    generalize (1 : K) / 2 ^ 1075 = η at *
    norm_num at *
    linarith
  have hsum2 := fl_step h (by linarith) (by linarith) (by norm_num) (by norm_num) (by positivity) (by generalize (1 : K) / 2 ^ 1075 = η at *; norm_num at *; linarith) hsum
  refine ⟨?_, ?_, hX0, hX4, hY0, hY4, hW4⟩
  · refine hsum2.trans ?_
    generalize τ * τ = q at *
    generalize (1 : K) / 2 ^ 1075 = η at *
    norm_num at *
    linarith
  · refine hs3.trans ?_
    generalize τ * τ = q at *
    generalize (1 : K) / 2 ^ 1075 = η at *
    generalize sqrt (X * Y) = W at *
    norm_num at *
    linarith

theorem exact_sum_le {a b W : K} (ha : 0 ≤ a) (ha4 : a ≤ 4) (hb : 0 ≤ b) (hb4 : b ≤ 4) (hW : 0 ≤ W)
    (e : W * W = a * (1 - 1 / 4 * b) * (b * (1 - 1 / 4 * a))) :
    a * (1 - 1 / 4 * b) + b * (1 - 1 / 4 * a) + 2 * W ≤ 4 ∧
    (a + b ≤ 4 → a + b ≤ a * (1 - 1 / 4 * b) + b * (1 - 1 / 4 * a) + 2 * W) ∧
    (4 ≤ a + b → 8 - (a + b) ≤ a * (1 - 1 / 4 * b) + b * (1 - 1 / 4 * a) + 2 * W) := by
  have hab : 0 ≤ a * b := mul_nonneg ha hb
  have hcd : 0 ≤ (4 - a) * (4 - b) := mul_nonneg (by linarith) (by linarith)
  have e' : W * W = (a * b) * ((4 - a) * (4 - b)) / 16 := by rw [e]; ring
  refine ⟨?_, fun h => ?_, fun h => ?_⟩
  · -- 2 W ≤ (a b + (4 - a)(4 - b)) / 4
    have : 2 * W ≤ (a * b + (4 - a) * (4 - b)) / 4 := by
      by_contra hc
      rw [not_le] at hc
      nlinarith [sq_nonneg (a * b - (4 - a) * (4 - b))]
    linarith
  · have : a * b / 4 ≤ W := by
      by_contra hc
      rw [not_le] at hc
      have h1 : W * W < a * b / 4 * (a * b / 4) := mul_self_lt_mul_self hW hc
      have h2 : a * b ≤ (4 - a) * (4 - b) := by nlinarith
      have := mul_le_mul_of_nonneg_left h2 hab
      nlinarith
    linarith
  · have : (4 - a) * (4 - b) / 4 ≤ W := by
      by_contra hc
      rw [not_le] at hc
      have h1 : W * W < (4 - a) * (4 - b) / 4 * ((4 - a) * (4 - b) / 4) := mul_self_lt_mul_self hW hc
      have h2 : (4 - a) * (4 - b) ≤ a * b := by nlinarith
      have := mul_le_mul_of_nonneg_left h2 hcd
      nlinarith
    nlinarith

/-- **C63.** With rounding, the sum has a relative error of at most 10 half-units in the last place (and a negligible absolute error). -/
theorem c63_add_near {fl sqrt : K → K} (h : Rounding fl) (hm : Monotone fl) (h0 : fl 0 = 0) (h1 : fl 1 = 1) (hs : IsSqrt sqrt) {a b : K}
    (ha : 0 ≤ a) (ha4 : a ≤ 4) (hqa : fl (1 / 4 * a) = 1 / 4 * a) (hb : 0 ≤ b) (hb4 : b ≤ 4) (hqb : fl (1 / 4 * b) = 1 / 4 * b) :
    |ChordAngle.add fl sqrt a b - ChordAngle.add _root_.id sqrt a b| ≤ 10 / 2 ^ 53 * ChordAngle.add _root_.id sqrt a b + 1 / 2 ^ 520 := by
  obtain ⟨e1, e2, x0, x4, y0, y4, w4⟩ := chord_sums h hm h0 h1 hs ha ha4 hqa hb hb4 hqb
  obtain ⟨w0, ww⟩ := hs _ (mul_nonneg x0 y0)
  obtain ⟨l1, l2, l3⟩ := exact_sum_le ha ha4 hb hb4 w0 ww
  have hτ : (0 : K) < 1 / 2 ^ 530 := by positivity
  have hτ1 : (5 : K) * (1 / 2 ^ 530) ≤ 1 / 2 ^ 520 := by
    rw [show (520 : ℕ) = 518 + 2 from rfl, show (530 : ℕ) = 518 + 12 from rfl, pow_add, pow_add, ← one_div_mul_one_div, ← one_div_mul_one_div]
    have : (0 : K) < 1 / 2 ^ 518 := by positivity
    generalize (1 : K) / 2 ^ 518 = z at *
    norm_num
    linarith
  have hτ2 : (1 : K) / 2 ^ 530 ≤ 1 / 2 ^ 70 := one_div_le_one_div_of_le (by positivity) (pow_le_pow_right₀ (by norm_num) (by norm_num))
  have hη : (1 : K) / 2 ^ 1075 ≤ 1 / 2 ^ 530 / 100 := by
    rw [show (1075 : ℕ) = 530 + 545 from rfl, pow_add, ← one_div_mul_one_div, div_eq_mul_one_div (1 / 2 ^ 530 : K) 100]
    refine mul_le_mul_of_nonneg_left (one_div_le_one_div_of_le (by norm_num) ?_) hτ.le
    exact le_trans (by norm_num : (100 : K) ≤ 2 ^ 7) (pow_le_pow_right₀ (by norm_num) (by norm_num))
  have hr := h (a + b) (by rw [abs_of_nonneg (by linarith)]; exact le_trans (by linarith : a + b ≤ 2 ^ 3) (pow_le_pow_right₀ (by norm_num) (by norm_num)))
  rw [abs_of_nonneg (by linarith : 0 ≤ a + b)] at hr
  -- the sum with rounding
  have hst := fl_step h (x := fl (ChordAngle.chord fl a b + ChordAngle.chord fl b a) + fl (2 * fl (sqrt (fl (ChordAngle.chord fl a b * ChordAngle.chord fl b a)))))
    (p := a * (1 - 1 / 4 * b) + b * (1 - 1 / 4 * a) + 2 * sqrt (a * (1 - 1 / 4 * b) * (b * (1 - 1 / 4 * a)))) (k := 708 / 100) (t := 4 * (1 / 2 ^ 530))
    (by linarith) (by linarith) (by norm_num) (by norm_num) (by positivity) (by generalize (1 : K) / 2 ^ 530 = τ at *; norm_num at *; linarith) (by
      have := abs_add_le (fl (ChordAngle.chord fl a b + ChordAngle.chord fl b a) - (a * (1 - 1 / 4 * b) + b * (1 - 1 / 4 * a)))
        (fl (2 * fl (sqrt (fl (ChordAngle.chord fl a b * ChordAngle.chord fl b a)))) - 2 * sqrt (a * (1 - 1 / 4 * b) * (b * (1 - 1 / 4 * a))))
      rw [← add_sub_add_comm] at this
      refine this.trans ((add_le_add e1 e2).trans ?_)
      clear hr l1 l2 l3 ww e1 e2 this hη
      generalize sqrt (a * (1 - 1 / 4 * b) * (b * (1 - 1 / 4 * a))) = W at *
      generalize a * (1 - 1 / 4 * b) = X at *
      generalize b * (1 - 1 / 4 * a) = Y at *
      generalize (1 : K) / 2 ^ 530 = τ at *
      norm_num at *
      linarith)
  clear e1 e2
  unfold ChordAngle.add ChordAngle.straight
  by_cases hb0 : b = 0
  · rw [if_pos hb0, if_pos hb0, sub_self, abs_zero]
    positivity
  rw [if_neg hb0, if_neg hb0]
  dsimp only
  generalize fl (fl (ChordAngle.chord fl a b + ChordAngle.chord fl b a) + fl (2 * fl (sqrt (fl (ChordAngle.chord fl a b * ChordAngle.chord fl b a))))) = R at *
  have ee : (_root_.id (_root_.id (ChordAngle.chord _root_.id a b + ChordAngle.chord _root_.id b a) + _root_.id (2 * _root_.id (sqrt (_root_.id (ChordAngle.chord _root_.id a b * ChordAngle.chord _root_.id b a))))) : K) =
    a * (1 - 1 / 4 * b) + b * (1 - 1 / 4 * a) + 2 * sqrt (a * (1 - 1 / 4 * b) * (b * (1 - 1 / 4 * a))) := rfl
  rw [ee, min_eq_right l1]
  generalize a * (1 - 1 / 4 * b) + b * (1 - 1 / 4 * a) + 2 * sqrt (a * (1 - 1 / 4 * b) * (b * (1 - 1 / 4 * a))) = E at *
  simp only [_root_.id]
  clear x0 x4 y0 y4 w4 w0 ww hm h hs hqa hqb ee
  have hE : 0 ≤ E := by
    rcases le_total (a + b) 4 with q | q
    · linarith [l2 q]
    · linarith [l3 q]
  generalize (1 : K) / 2 ^ 1075 = η at *
  generalize (1 : K) / 2 ^ 530 = τ at *
  generalize (1 : K) / 2 ^ 520 = z at *
  generalize fl (a + b) = S at *
  rw [abs_le] at hr
  have hR2 : |min 4 R - E| ≤ (81 / 10) / 2 ^ 53 * E + z := by
    have : |min 4 R - E| ≤ |R - E| := by
      rcases le_total 4 R with q | q
      · rw [min_eq_left q, abs_of_nonneg (by linarith), abs_of_nonneg (by linarith)]; linarith
      · rw [min_eq_right q]
    refine this.trans (hst.trans ?_)
    clear l2 l3 hr
    norm_num at *
    linarith
  have hR : |min 4 R - E| ≤ 10 / 2 ^ 53 * E + z := by
    refine hR2.trans ?_
    clear l2 l3 hr
    norm_num at *
    linarith
  split_ifs with q1 q2 q2
  · rw [sub_self, abs_zero]
    norm_num at *
    linarith
  · have q2 : a + b < 4 := not_le.1 q2
    have := l2 q2.le
    rw [abs_of_nonneg (by linarith)]
    have q1 : 4 ≤ S := q1
    norm_num at *
    linarith
  · have q1 : S < 4 := not_le.1 q1
    have q2 : 4 ≤ a + b := q2
    have := l3 q2
    have hab : a + b ≤ 4 + 5 / 2 ^ 53 := by norm_num at *; linarith
    rw [abs_le] at hR2 ⊢
    have := min_le_left 4 R
    clear hst hR hr l2 l3
    generalize min 4 R = m at *
    norm_num at *
    constructor <;> linarith
  · exact hR

/-- **C63.** With rounding, the difference is within `39/2^53` of the exact one. -/
theorem c63_sub_near {fl sqrt : K → K} (h : Rounding fl) (hm : Monotone fl) (h0 : fl 0 = 0) (h1 : fl 1 = 1) (hs : IsSqrt sqrt) {a b : K}
    (ha : 0 ≤ a) (ha4 : a ≤ 4) (hqa : fl (1 / 4 * a) = 1 / 4 * a) (hb : 0 ≤ b) (hb4 : b ≤ 4) (hqb : fl (1 / 4 * b) = 1 / 4 * b) :
    |ChordAngle.sub fl sqrt a b - ChordAngle.sub _root_.id sqrt a b| ≤ 39 / 2 ^ 53 := by
  obtain ⟨e1, e2, x0, x4, y0, y4, w4⟩ := chord_sums h hm h0 h1 hs ha ha4 hqa hb hb4 hqb
  obtain ⟨w0, ww⟩ := hs _ (mul_nonneg x0 y0)
  obtain ⟨l1, l2, l3⟩ := exact_sum_le ha ha4 hb hb4 w0 ww
  have hτ2 : (1 : K) / 2 ^ 530 ≤ 1 / 2 ^ 70 := one_div_le_one_div_of_le (by positivity) (pow_le_pow_right₀ (by norm_num) (by norm_num))
  have hτ : (0 : K) < 1 / 2 ^ 530 := by positivity
  unfold ChordAngle.sub
  by_cases hb0 : b = 0
  · rw [if_pos hb0, if_pos hb0, sub_self, abs_zero]
    positivity
  rw [if_neg hb0, if_neg hb0]
  by_cases hab : a ≤ b
  · rw [if_pos hab, if_pos hab, sub_self, abs_zero]
    positivity
  rw [if_neg hab, if_neg hab]
  dsimp only
  have ee : (_root_.id (_root_.id (ChordAngle.chord _root_.id a b + ChordAngle.chord _root_.id b a) - _root_.id (2 * _root_.id (sqrt (_root_.id (ChordAngle.chord _root_.id a b * ChordAngle.chord _root_.id b a))))) : K) =
    a * (1 - 1 / 4 * b) + b * (1 - 1 / 4 * a) - 2 * sqrt (a * (1 - 1 / 4 * b) * (b * (1 - 1 / 4 * a))) := rfl
  rw [ee]
  clear ee hab hb0 l2 l3 hs hm h1 h0 hqa hqb
  have hmax : ∀ p q : K, |max 0 p - max 0 q| ≤ |p - q| := fun p q => by
    rw [max_comm 0 p, max_comm 0 q]
    exact abs_max_sub_max_le_abs p q 0
  refine (hmax _ _).trans ?_
  have := abs_sub (fl (ChordAngle.chord fl a b + ChordAngle.chord fl b a) - (a * (1 - 1 / 4 * b) + b * (1 - 1 / 4 * a)))
    (fl (2 * fl (sqrt (fl (ChordAngle.chord fl a b * ChordAngle.chord fl b a)))) - 2 * sqrt (a * (1 - 1 / 4 * b) * (b * (1 - 1 / 4 * a))))
  rw [sub_sub_sub_comm] at this
  have hd := this.trans (add_le_add e1 e2)
  clear this e1 e2
  generalize fl (ChordAngle.chord fl a b + ChordAngle.chord fl b a) = P at *
  generalize fl (2 * fl (sqrt (fl (ChordAngle.chord fl a b * ChordAngle.chord fl b a)))) = Q at *
  generalize sqrt (a * (1 - 1 / 4 * b) * (b * (1 - 1 / 4 * a))) = W at *
  generalize a * (1 - 1 / 4 * b) = X at *
  generalize b * (1 - 1 / 4 * a) = Y at *
  generalize (1 : K) / 2 ^ 530 = τ at *
  have hd2 : |P - Q - (X + Y - 2 * W)| ≤ 29 / 2 ^ 53 := by
    refine hd.trans ?_
    clear hd
    norm_num at *
    linarith
  clear hd
  have hab := abs_of_near (P := 8) hd2 (by rw [abs_le]; constructor <;> linarith)
  refine (near_fl h hd2 (B := 9) (hab.trans (by norm_num)) (by norm_num)).trans ?_
  norm_num


/-! ## The distance of two points -/

theorem square_near {fl : K → K} (h : Rounding fl) {x : K} (hx : |x| ≤ 4) : |fl (fl x * fl x) - x * x| ≤ (302 / 100) / 2 ^ 53 * (x * x) + 12 * (1 / 2 ^ 1075) := by
  have h1 := h x (hx.trans ((by norm_num : (4 : K) ≤ 2 ^ 2).trans (pow_le_pow_right₀ (by norm_num) (by norm_num))))
  have hη : (0 : K) < 1 / 2 ^ 1075 := by positivity
  have hη1 : (1 : K) / 2 ^ 1075 ≤ 1 / 2 ^ 60 := one_div_le_one_div_of_le (by positivity) (pow_le_pow_right₀ (by norm_num) (by norm_num))
  have hx0 := abs_nonneg x
  have e : x * x = |x| * |x| := (abs_mul_abs_self x).symm
  have hd : |fl x * fl x - x * x| ≤ (201 / 100) / 2 ^ 53 * (x * x) + 9 * (1 / 2 ^ 1075) := by
    have e2 : fl x * fl x - x * x = (fl x - x) * (fl x - x) + 2 * (x * (fl x - x)) := by ring
    have h2 := abs_add_le ((fl x - x) * (fl x - x)) (2 * (x * (fl x - x)))
    rw [← e2, abs_mul (fl x - x), abs_mul 2, abs_mul x, abs_of_pos (by norm_num : (0 : K) < 2)] at h2
    have h3 : |fl x - x| * |fl x - x| ≤ (|x| / 2 ^ 53 + 1 / 2 ^ 1075) * (|x| / 2 ^ 53 + 1 / 2 ^ 1075) := mul_le_mul h1 h1 (abs_nonneg _) ((abs_nonneg _).trans h1)
    have h4 := mul_le_mul_of_nonneg_left h1 hx0
    refine h2.trans ?_
    rw [e]
    generalize (1 : K) / 2 ^ 1075 = η at *
    have h5 : |x| * η ≤ 4 * η := mul_le_mul_of_nonneg_right hx hη.le
    have h6 : η * η ≤ 1 / 2 ^ 60 * η := mul_le_mul_of_nonneg_right hη1 hη.le
    have h7 : 0 ≤ |x| * |x| := mul_nonneg hx0 hx0
    have e3 : (|x| / 2 ^ 53 + η) * (|x| / 2 ^ 53 + η) = |x| * |x| / 2 ^ 53 / 2 ^ 53 + 2 / 2 ^ 53 * (|x| * η) + η * η := by ring
    have e4 : |x| * (|x| / 2 ^ 53 + η) = |x| * |x| / 2 ^ 53 + |x| * η := by ring
    rw [e3] at h3
    rw [e4] at h4
    clear e e2 e3 e4 h1 h2
    generalize |fl x - x| * |fl x - x| = m1 at *
    generalize |x| * |fl x - x| = m2 at *
    generalize |x| * |x| = m3 at *
    generalize |x| * η = m4 at *
    generalize η * η = m5 at *
    norm_num at *
    linarith
  have hx16 : x * x ≤ 16 := by rw [e]; nlinarith
  have := fl_step h (mul_self_nonneg x) (by linarith) (by norm_num) (by norm_num) (by positivity) (by generalize (1 : K) / 2 ^ 1075 = η at *; norm_num at *; linarith) hd
  refine this.trans ?_
  generalize (1 : K) / 2 ^ 1075 = η at *
  have := mul_self_nonneg x
  generalize x * x = m at *
  norm_num at *
  linarith

/-- **C77.** The squared distance of two points is computed with a relative error of at most `5.1 / 2^53` (2.55 `DBL_EPSILON`). -/
theorem c77_near {fl : K → K} (h : Rounding fl) {p q : Vec K} (hx : |p.x - q.x| ≤ 4) (hy : |p.y - q.y| ≤ 4) (hz : |p.z - q.z| ≤ 4) :
    |Vec.chordAngle fl p q - min 4 (dot (diff p q) (diff p q))| ≤ (51 / 10) / 2 ^ 53 * dot (diff p q) (diff p q) + 1 / 2 ^ 1060 := by
  have sx := square_near h hx
  have sy := square_near h hy
  have sz := square_near h hz
  have px := mul_self_nonneg (p.x - q.x)
  have py := mul_self_nonneg (p.y - q.y)
  have pz := mul_self_nonneg (p.z - q.z)
  have bx : (p.x - q.x) * (p.x - q.x) ≤ 16 := by rw [← abs_mul_abs_self]; nlinarith [abs_nonneg (p.x - q.x)]
  have by' : (p.y - q.y) * (p.y - q.y) ≤ 16 := by rw [← abs_mul_abs_self]; nlinarith [abs_nonneg (p.y - q.y)]
  have bz : (p.z - q.z) * (p.z - q.z) ≤ 16 := by rw [← abs_mul_abs_self]; nlinarith [abs_nonneg (p.z - q.z)]
  unfold Vec.chordAngle Vec.norm2 Vec.sub Vec.dot dot diff
  dsimp only
  have hη : (0 : K) < 1 / 2 ^ 1075 := by positivity
  have hη1 : (1 : K) / 2 ^ 1075 ≤ 1 / 2 ^ 60 := one_div_le_one_div_of_le (by positivity) (pow_le_pow_right₀ (by norm_num) (by norm_num))
  have hη2 : 100 * ((1 : K) / 2 ^ 1075) ≤ 1 / 2 ^ 1060 := by
    rw [show (1075 : ℕ) = 1060 + 15 from rfl, pow_add, ← one_div_mul_one_div]
    have : (0 : K) < 1 / 2 ^ 1060 := by positivity
    generalize (1 : K) / 2 ^ 1060 = z at *
    norm_num
    linarith
  generalize fl (fl (p.x - q.x) * fl (p.x - q.x)) = x at *
  generalize fl (fl (p.y - q.y) * fl (p.y - q.y)) = y at *
  generalize fl (fl (p.z - q.z) * fl (p.z - q.z)) = z at *
  generalize (p.x - q.x) * (p.x - q.x) = X at *
  generalize (p.y - q.y) * (p.y - q.y) = Y at *
  generalize (p.z - q.z) * (p.z - q.z) = Z at *
  clear hx hy hz
  have h1 : |x + y - (X + Y)| ≤ (302 / 100) / 2 ^ 53 * (X + Y) + 24 * (1 / 2 ^ 1075) := by
    have := abs_add_le (x - X) (y - Y)
    rw [show x - X + (y - Y) = x + y - (X + Y) by ring] at this
    generalize (1 : K) / 2 ^ 1075 = η at *
    norm_num at *
    linarith
  have h2 := fl_step h (by linarith) (by linarith) (by norm_num) (by norm_num) (by positivity) (by generalize (1 : K) / 2 ^ 1075 = η at *; norm_num at *; linarith) h1
  have h3 : |fl (x + y) + z - (X + Y + Z)| ≤ (403 / 100) / 2 ^ 53 * (X + Y + Z) + 40 * (1 / 2 ^ 1075) := by
    have := abs_add_le (fl (x + y) - (X + Y)) (z - Z)
    rw [show fl (x + y) - (X + Y) + (z - Z) = fl (x + y) + z - (X + Y + Z) by ring] at this
    generalize (1 : K) / 2 ^ 1075 = η at *
    norm_num at *
    linarith
  have h4 := fl_step h (by linarith) (by linarith) (by norm_num) (by norm_num) (by positivity) (by generalize (1 : K) / 2 ^ 1075 = η at *; norm_num at *; linarith) h3
  have hmin : ∀ a b : K, |min 4 a - min 4 b| ≤ |a - b| := fun a b => by
    rw [min_comm 4 a, min_comm 4 b]
    exact abs_min_sub_min_le_max a 4 b 4 |>.trans (by simp)
  refine (hmin _ _).trans (h4.trans ?_)
  generalize (1 : K) / 2 ^ 1060 = w at *
  generalize (1 : K) / 2 ^ 1075 = η at *
  norm_num at *
  linarith

/-- **C77** (defect). `max_point_error` is smaller than documented for points whose lengths differ from 1 by `2 * DBL_EPSILON`: the points
`(1 + 2ε, 0, 0)` and `(0, 1 + 2ε, 0)` project to points of squared distance 2, outside the error interval of the computed chord angle. -/
theorem c77_maxPointError_defect [FloorRing K] :
    let e : K := 1 / 2 ^ 52
    let p : Vec K := ⟨1 + 2 * e, 0, 0⟩
    let q : Vec K := ⟨0, 1 + 2 * e, 0⟩
    smul (1 + 2 * e) ⟨1, 0, 0⟩ = p ∧ smul (1 + 2 * e) ⟨0, 1, 0⟩ = q ∧
    2 < Vec.chordAngle rne p q - ChordAngle.maxPointError rne (Vec.chordAngle rne p q) := by
  dsimp only
  refine ⟨by simp [smul], by simp [smul], ?_⟩
  have r1 : rne (1 + 2 * (1 / 2 ^ 52) : K) = 1 + 2 * (1 / 2 ^ 52) :=
    rne_exact (m := 2 ^ 52 + 2) (k := -52) (by push_cast; norm_num) (by norm_num) (by norm_num)
  have r2 : rne ((1 + 2 * (1 / 2 ^ 52)) * (1 + 2 * (1 / 2 ^ 52)) : K) = 1 + 4 * (1 / 2 ^ 52) := by
    rw [rne_binade (e := -52) (by norm_num) (by rw [abs_of_pos (by norm_num)]; norm_num) (by rw [abs_of_pos (by norm_num)]; norm_num)]
    have : roundEven ((1 + 2 * (1 / 2 ^ 52)) * (1 + 2 * (1 / 2 ^ 52)) / 2 ^ (-52 : ℤ) : K) = 2 ^ 52 + 4 := by
      refine roundEven_eq ?_
      rw [abs_lt]; constructor <;> norm_num
    rw [this]
    norm_num
  have r3 : rne (1 + 4 * (1 / 2 ^ 52) + (1 + 4 * (1 / 2 ^ 52)) : K) = 2 + 8 * (1 / 2 ^ 52) :=
    (rne_exact (m := 2 ^ 52 + 4) (k := -51) (by push_cast; norm_num) (by norm_num) (by norm_num)).trans (by norm_num)
  have r4 : rne (2 + 8 * (1 / 2 ^ 52) : K) = 2 + 8 * (1 / 2 ^ 52) :=
    rne_exact (m := 2 ^ 52 + 4) (k := -51) (by push_cast; norm_num) (by norm_num) (by norm_num)
  have hc : Vec.chordAngle rne (⟨1 + 2 * (1 / 2 ^ 52), 0, 0⟩ : Vec K) ⟨0, 1 + 2 * (1 / 2 ^ 52), 0⟩ = 2 + 8 * (1 / 2 ^ 52) := by
    unfold Vec.chordAngle Vec.norm2 Vec.sub Vec.dot
    dsimp only
    rw [sub_zero, zero_sub, sub_zero, rne_odd.eq, r1, rne_zero, neg_mul_neg, r2, mul_zero, rne_zero, r3, add_zero, r4]
    norm_num
  rw [hc]
  unfold ChordAngle.maxPointError
  have hr : Rounding (rne : K → K) := rounding_rne
  obtain ⟨d1, d2⟩ := dblEps_bounds hr
  have h52 : rne (5 / 2 : K) = 5 / 2 := rne_exact (m := 5) (k := -1) (by norm_num) (by norm_num) (by norm_num)
  rw [h52]
  generalize Predicates.dblEpsilon (rne : K → K) = d at *
  have hη1 : (1 : K) / 2 ^ 1075 ≤ 1 / 2 ^ 120 := one_div_le_one_div_of_le (by positivity) (pow_le_pow_right₀ (by norm_num) (by norm_num))
  have big : ∀ x : K, |x| ≤ 1 → rne x ≤ x + |x| / 2 ^ 53 + 1 / 2 ^ 120 := fun x hx => by
    have := hr x (hx.trans (one_le_pow₀ (by norm_num)))
    rw [abs_le] at this
    linarith [this.2]
  have pos : ∀ x : K, 0 ≤ x → 0 ≤ rne x := fun x hx => rne_nonneg hx
  have d0 : 0 ≤ d := le_trans (by norm_num) d1
  clear hc r1 r2 r3 r4 h52 hr hη1 d1
  have a0 : 0 ≤ 5 / 2 * d := by positivity
  have a1 := big (5 / 2 * d) (by rw [abs_of_nonneg a0]; norm_num at *; linarith)
  rw [abs_of_nonneg a0] at a1
  have a1' : rne (5 / 2 * d) ≤ 52 / 10 / 2 ^ 53 := a1.trans (by norm_num at *; linarith)
  have a2 := pos _ a0
  generalize rne (5 / 2 * d) = m1 at *
  have b0 : 0 ≤ m1 * (2 + 8 * (1 / 2 ^ 52)) := by positivity
  have b1 := big (m1 * (2 + 8 * (1 / 2 ^ 52))) (by rw [abs_of_nonneg b0]; norm_num at *; linarith)
  rw [abs_of_nonneg b0] at b1
  have b1' : rne (m1 * (2 + 8 * (1 / 2 ^ 52))) ≤ 107 / 10 / 2 ^ 53 := b1.trans (by norm_num at *; linarith)
  have b2 := pos _ b0
  generalize rne (m1 * (2 + 8 * (1 / 2 ^ 52))) = m2 at *
  have c0 : 0 ≤ 16 * d := by positivity
  have c1 := big (16 * d) (by rw [abs_of_nonneg c0]; norm_num at *; linarith)
  rw [abs_of_nonneg c0] at c1
  have c1' : rne (16 * d) ≤ 33 / 2 ^ 53 := c1.trans (by norm_num at *; linarith)
  have c2 := pos _ c0
  generalize rne (16 * d) = m3 at *
  have e0 : 0 ≤ m3 * d := mul_nonneg c2 d0
  have e00 : m3 * d ≤ 33 / 2 ^ 53 * (3 / 2 ^ 53) := mul_le_mul c1' (d2.trans (by norm_num)) d0 (by norm_num)
  have e1 := big (m3 * d) (by rw [abs_of_nonneg e0]; exact e00.trans (by norm_num))
  rw [abs_of_nonneg e0] at e1
  have e1' : rne (m3 * d) ≤ 1 / 100 / 2 ^ 53 := e1.trans (by
    clear a1 a1' b1 b1' c1 c1' big pos
    generalize m3 * d = m4 at *
    norm_num at *
    linarith)
  have e2 := pos _ e0
  generalize rne (m3 * d) = m4 at *
  have f1 := big (m2 + m4) (by rw [abs_of_nonneg (by linarith)]; norm_num at *; linarith)
  rw [abs_of_nonneg (by linarith)] at f1
  generalize rne (m2 + m4) = m5 at *
  clear big pos a1 b1 c1 e1 e00 e0
  norm_num at *
  linarith

/-! ## Examples -/

example (a b : ℝ) (ha : 0 ≤ a) (ha4 : a ≤ 4) (hb : 0 ≤ b) (hb4 : b ≤ 4) := c63_add_range (fl := rne) rne_mono rne_zero rne_one isSqrt_real ha ha4 hb hb4

example : ChordAngle.add rne Real.sqrt 1 (5 / 2) = ChordAngle.add rne Real.sqrt (5 / 2) 1 :=
  c63_add_comm rne_zero rne_one isSqrt_real (by norm_num) rne_one (by norm_num)
    (rne_exact (m := 5) (k := -1) (by norm_num) (by norm_num) (by norm_num))

example := c63_add_near (fl := rne) (sqrt := Real.sqrt) (a := 1) (b := 2) rounding_rne rne_mono rne_zero rne_one isSqrt_real (by norm_num) (by norm_num)
  (rne_exact (m := 1) (k := -2) (by norm_num) (by norm_num) (by norm_num)) (by norm_num) (by norm_num)
  (rne_exact (m := 1) (k := -1) (by norm_num) (by norm_num) (by norm_num))

example : ChordAngle.add _root_.id Real.sqrt (chordOf (Real.pi / 3)) (chordOf (Real.pi / 2)) = chordOf (min (Real.pi / 3 + Real.pi / 2) Real.pi) :=
  c63_add_exact (by positivity) (by linarith [Real.pi_pos]) (by positivity) (by linarith [Real.pi_pos])

example := c63_fromAngle (K := ℝ) (fl := _root_.id) (sin := Real.sin) (pi := Real.pi) monotone_id rfl Real.pi_pos.le
  (Real.strictMonoOn_sin.monotoneOn.mono (fun x hx => ⟨by linarith [hx.1, Real.pi_pos], by have := hx.2; simp only [_root_.id] at this; linarith⟩)) (by simp)

end Verif
