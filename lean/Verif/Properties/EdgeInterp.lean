import Verif.Properties.EdgeClip

/-!
# Clipping with rounding: C79
-/

namespace Verif
open Spec EdgeClip
variable {K : Type} [Field K] [LinearOrder K] [IsStrictOrderedRing K]

section round
variable [FloorRing K]

/-- Rounding a number of at most `2^e` moves it by at most `2^(e-54)`. -/
theorem rne_abs {y : K} (e : ℤ) (he : -1021 ≤ e) (h : |y| ≤ 2 ^ e) : |rne y - y| ≤ 2 ^ (e - 54) := by
  have hp := two_zpow_pos (K := K) (e - 54)
  rcases eq_or_ne y 0 with h0 | h0
  · rw [h0, rne_zero, sub_self, abs_zero]; exact hp.le
  rcases h.eq_or_lt with h1 | h1
  · have : rne y = y := by
      have key : rne |y| = |y| := by
        rw [h1]
        exact rne_exact (m := 1) (k := e) (by norm_num) (by norm_num) (by linarith)
      rcases abs_choice y with c | c <;> rw [c] at key
      · exact key
      · rw [rne_odd] at key; linarith
    rw [this, sub_self, abs_zero]; exact hp.le
  · have hlog : Int.log 2 |y| < e := by
      refine (Int.lt_zpow_iff_log_lt (by norm_num) (abs_pos.2 h0)).1 ?_
      push_cast
      exact h1
    have hu : ulpExp y ≤ e - 53 := by
      unfold ulpExp
      omega
    have h2 := rne_near_ulp y
    have h3 := two_zpow_le (K := K) hu
    have h4 : (2 : K) ^ (e - 53) = 2 * 2 ^ (e - 54) := by
      rw [show e - 53 = 1 + (e - 54) by ring, two_zpow_add, zpow_one]
    rw [h4] at h3
    linarith

theorem rne_half {y : K} (h : |y| ≤ 1) : |rne y - y| ≤ 1 / 2 ^ 54 := by
  have := rne_abs (y := y) 0 (by norm_num) (by rw [zpow_zero]; exact h)
  rw [show (0 : ℤ) - 54 = -(54 : ℕ) by norm_num, zpow_neg, zpow_natCast] at this
  rw [one_div]; exact this

theorem rne_two {y : K} (h : |y| ≤ 2) : |rne y - y| ≤ 1 / 2 ^ 53 := by
  have := rne_abs (y := y) 1 (by norm_num) (by rw [zpow_one]; exact h)
  rw [show (1 : ℤ) - 54 = -(53 : ℕ) by norm_num, zpow_neg, zpow_natCast] at this
  rw [one_div]; exact this

/-- Doubles next to one: none between `1 - 2^-53` and one. -/
theorem near_one {x : K} (hx : IsF64 x) (h : x < 1) : x ≤ 1 - 1 / 2 ^ 53 := by
  rcases lt_or_ge x (1 / 2) with h1 | h1
  · have : (1 : K) / 2 ^ 53 ≤ 1 / 2 := by norm_num
    linarith
  · obtain ⟨n, hn⟩ := isF64_mul (v := (1 / 2 : K)) (by norm_num) h1 hx
    have e : ulpExp (1 / 2 : K) = -53 := by
      unfold ulpExp
      have : Int.log 2 |(1 / 2 : K)| = -1 := by
        rw [abs_of_pos (by norm_num)]
        have := Int.log_zpow (R := K) (b := 2) (by norm_num) (-1)
        rw [← this]
        norm_num
      rw [this]; norm_num
    rw [e, show (-53 : ℤ) = -(53 : ℕ) by norm_num, zpow_neg, zpow_natCast] at hn
    have h2 : n < 2 ^ 53 := by
      by_contra hc
      have : ((2 ^ 53 : ℤ) : K) ≤ n := by exact_mod_cast not_lt.1 hc
      push_cast at this
      have : (2 ^ 53 : K) * (2 ^ 53)⁻¹ ≤ n * (2 ^ 53)⁻¹ := mul_le_mul_of_nonneg_right (by linarith) (by positivity)
      rw [mul_inv_cancel₀ (by positivity)] at this
      linarith
    have h3 : (n : K) ≤ 2 ^ 53 - 1 := by
      have : n ≤ 2 ^ 53 - 1 := by omega
      have : (n : K) ≤ ((2 ^ 53 - 1 : ℤ) : K) := by exact_mod_cast this
      push_cast at this
      linarith
    rw [hn]
    calc (n : K) * (2 ^ 53)⁻¹ ≤ (2 ^ 53 - 1) * (2 ^ 53)⁻¹ := mul_le_mul_of_nonneg_right h3 (by positivity)
      _ = 1 - 1 / 2 ^ 53 := by field_simp

omit [FloorRing K] in
theorem big1023 {x : K} (h : x ≤ 16) : x ≤ 2 ^ 1023 := by
  calc x ≤ 16 := h
    _ = 2 ^ 4 := by norm_num
    _ ≤ 2 ^ 1023 := pow_le_pow_right₀ (by norm_num) (by norm_num)

omit [FloorRing K] [LinearOrder K] [IsStrictOrderedRing K] in
theorem eta_eq [CharZero K] : (1 : K) / 2 ^ 1075 = 1 / 2 ^ 174 * (1 / 2 ^ 900) * (1 / 2) := by
  rw [show 1075 = 174 + 900 + 1 from rfl, pow_succ, pow_add]
  field_simp

omit [FloorRing K] in
theorem eta_le : (1 : K) / 2 ^ 1075 ≤ 1 / 2 ^ 174 :=
  one_div_le_one_div_of_le (by positivity) (pow_le_pow_right₀ (by norm_num) (by norm_num))

set_option maxHeartbeats 2000000 in
/-- The quotient of `interpolate` when the computed distance to `a` is at most that to `b`, for growing values. -/
theorem interp_core {x a b a1 b1 : K} (hx : IsF64 x) (ha : IsF64 a) (hb : IsF64 b) (ha1 : IsF64 a1) (hb1 : IsF64 b1) (hax : a ≤ x) (hxb : x ≤ b)
    (hab : 1 / 2 ^ 900 ≤ b - a) (hb2 : b - a ≤ 2) (h1 : -1 ≤ a1) (h2 : a1 ≤ b1) (h3 : b1 ≤ 1) (hc : rne (x - a) ≤ rne (b - x)) :
    let q := rne (rne (rne (b1 - a1) * rne (x - a)) / rne (b - a))
    0 ≤ q ∧ (1 / 2 ^ 170 ≤ b1 - a1 → q ≤ b1 - a1) ∧ (b1 = a1 → q = 0) ∧
      |rne (a1 + q) - (a1 + (x - a) / (b - a) * (b1 - a1))| ≤ 9 / 4 * (1 / 2 ^ 52) + 1 / 2 ^ 100 := by
  intro q
  have hq : q = rne (rne (rne (b1 - a1) * rne (x - a)) / rne (b - a)) := rfl
  clear_value q
  have sub_rel : ∀ x y : K, IsF64 x → IsF64 y → |rne (x - y) - (x - y)| ≤ 1 / 2 ^ 53 * |x - y| := by
    intro x y hx hy
    have := sum_rel hx (isF64_neg hy)
    rwa [← sub_eq_add_neg] at this
  have hf0 : 0 < b - a := lt_of_lt_of_le (by positivity) hab
  have hD := sub_rel b1 a1 hb1 ha1
  have hE := sub_rel x a hx ha
  have hF := sub_rel b a hb ha
  have hG := sub_rel b x hb hx
  have hD' := rne_two (y := b1 - a1) (by rw [abs_of_nonneg (by linarith)]; linarith)
  rw [abs_of_nonneg (show 0 ≤ b1 - a1 by linarith)] at hD
  rw [abs_of_nonneg (show 0 ≤ x - a by linarith)] at hE
  rw [abs_of_nonneg (show 0 ≤ b - a by linarith)] at hF
  rw [abs_of_nonneg (show 0 ≤ b - x by linarith)] at hG
  have hD0 := rne_nonneg (show 0 ≤ b1 - a1 by linarith)
  have hE0 := rne_nonneg (show 0 ≤ x - a by linarith)
  have hzero : b1 = a1 → q = 0 := by
    intro h
    rw [hq, h, sub_self, rne_zero, zero_mul, rne_zero, zero_div, rne_zero]
  set D := rne (b1 - a1) with hDdef
  set E := rne (x - a) with hEdef
  set F := rne (b - a) with hFdef
  set G := rne (b - x) with hGdef
  set t := (x - a) / (b - a) with ht
  have het : x - a = t * (b - a) := by rw [ht]; field_simp
  have t0 : 0 ≤ t := div_nonneg (by linarith) hf0.le
  rw [abs_le] at hD hE hF hG hD'
  have hF0 : 0 < F := by
    have : (1 - 1 / 2 ^ 53) * (b - a) ≤ F := by linarith [hF.1]
    exact lt_of_lt_of_le (mul_pos (by norm_num) hf0) this
  have tle : t ≤ (1 + 1 / 2 ^ 53) / 2 := by
    rw [ht, div_le_iff₀ hf0]
    norm_num at hE hG ⊢
    linarith
  have hP0 : 0 ≤ rne (D * E) := rne_nonneg (mul_nonneg hD0 hE0)
  have hDle : D ≤ 2 + 1 / 2 ^ 53 := by linarith [hD'.2]
  have hEle : E ≤ 2 * (1 + 1 / 2 ^ 53) := by
    have : (1 + 1 / 2 ^ 53) * (x - a) ≤ (1 + 1 / 2 ^ 53) * 2 := mul_le_mul_of_nonneg_left (by linarith) (by positivity)
    linarith [hE.2]
  have hP : |rne (D * E) - D * E| ≤ 1 / 2 ^ 53 * (D * E) + 1 / 2 ^ 1075 := by
    have := rounding_rne (D * E) (by
      rw [abs_of_nonneg (mul_nonneg hD0 hE0)]
      calc D * E ≤ 4 * 4 := mul_le_mul (hDle.trans (by norm_num)) (hEle.trans (by norm_num)) hE0 (by norm_num)
        _ ≤ 2 ^ 1023 := big1023 (by norm_num))
    rw [abs_of_nonneg (mul_nonneg hD0 hE0), div_eq_mul_inv, mul_comm (D * E), ← one_div] at this
    exact this
  set P := rne (D * E) with hPdef
  rw [abs_le] at hP
  set w := D * t with hw
  have w0 : 0 ≤ w := mul_nonneg hD0 t0
  have hEf1 : E ≤ (1 + 1 / 2 ^ 53) * t * (b - a) := by rw [mul_assoc, ← het]; linarith [hE.2]
  have hEf2 : (1 - 1 / 2 ^ 53) * t * (b - a) ≤ E := by rw [mul_assoc, ← het]; linarith [hE.1]
  have hDE1 : D * E ≤ (1 + 1 / 2 ^ 53) * (w * (b - a)) := by
    have := mul_le_mul_of_nonneg_left hEf1 hD0
    rw [hw]; linarith
  have hDE2 : (1 - 1 / 2 ^ 53) * (w * (b - a)) ≤ D * E := by
    have := mul_le_mul_of_nonneg_left hEf2 hD0
    rw [hw]; linarith
  have hwf0 : 0 ≤ w * (b - a) := mul_nonneg w0 hf0.le
  have small : (1 : K) / 2 ^ 1075 ≤ 1 / 2 ^ 174 * (b - a) * (1 / 2) := by
    have : (1 : K) / 2 ^ 174 * (1 / 2 ^ 900) ≤ 1 / 2 ^ 174 * (b - a) := mul_le_mul_of_nonneg_left hab (by positivity)
    have e : (1 : K) / 2 ^ 1075 = 1 / 2 ^ 174 * (1 / 2 ^ 900) * (1 / 2) := eta_eq
    rw [e]; linarith
  have y1 : P / F ≤ w * (1 + 3 / 2 ^ 53 + 8 / 2 ^ 106) + 1 / 2 ^ 174 := by
    rw [div_le_iff₀ hF0]
    have g1 : P ≤ (1 + 1 / 2 ^ 53) * ((1 + 1 / 2 ^ 53) * (w * (b - a))) + 1 / 2 ^ 174 * (b - a) * (1 / 2) := by
      have := mul_le_mul_of_nonneg_left hDE1 (show (0 : K) ≤ 1 + 1 / 2 ^ 53 by positivity)
      linarith [hP.2]
    have g2 : (w * (1 + 3 / 2 ^ 53 + 8 / 2 ^ 106) + 1 / 2 ^ 174) * ((1 - 1 / 2 ^ 53) * (b - a)) ≤ (w * (1 + 3 / 2 ^ 53 + 8 / 2 ^ 106) + 1 / 2 ^ 174) * F :=
      mul_le_mul_of_nonneg_left (by linarith [hF.1]) (by positivity)
    refine g1.trans (le_trans ?_ g2)
    have e : (w * (1 + 3 / 2 ^ 53 + 8 / 2 ^ 106) + 1 / 2 ^ 174) * ((1 - 1 / 2 ^ 53) * (b - a)) =
      (1 + 3 / 2 ^ 53 + 8 / 2 ^ 106) * (1 - 1 / 2 ^ 53) * (w * (b - a)) + (1 - 1 / 2 ^ 53) * (1 / 2 ^ 174 * (b - a)) := by ring
    rw [e]
    have k0 : 0 ≤ 1 / 2 ^ 174 * (b - a) := by positivity
    generalize 1 / 2 ^ 174 * (b - a) = z at *
    generalize w * (b - a) = v at *
    norm_num
    linarith
  have y2 : w * (1 - 3 / 2 ^ 53) - 1 / 2 ^ 174 ≤ P / F := by
    rw [le_div_iff₀ hF0]
    have g1 : (1 - 1 / 2 ^ 53) * ((1 - 1 / 2 ^ 53) * (w * (b - a))) - 1 / 2 ^ 174 * (b - a) * (1 / 2) ≤ P := by
      have := mul_le_mul_of_nonneg_left hDE2 (show (0 : K) ≤ 1 - 1 / 2 ^ 53 by norm_num)
      linarith [hP.1]
    rcases le_total (w * (1 - 3 / 2 ^ 53) - 1 / 2 ^ 174) 0 with hn | hn
    · exact (mul_nonpos_of_nonpos_of_nonneg hn hF0.le).trans hP0
    have g2 : (w * (1 - 3 / 2 ^ 53) - 1 / 2 ^ 174) * F ≤ (w * (1 - 3 / 2 ^ 53) - 1 / 2 ^ 174) * ((1 + 1 / 2 ^ 53) * (b - a)) :=
      mul_le_mul_of_nonneg_left (by linarith [hF.2]) hn
    refine le_trans (g2.trans ?_) g1
    have e : (w * (1 - 3 / 2 ^ 53) - 1 / 2 ^ 174) * ((1 + 1 / 2 ^ 53) * (b - a)) =
      (1 - 3 / 2 ^ 53) * (1 + 1 / 2 ^ 53) * (w * (b - a)) - (1 + 1 / 2 ^ 53) * (1 / 2 ^ 174 * (b - a)) := by ring
    rw [e]
    have k0 : 0 ≤ 1 / 2 ^ 174 * (b - a) := by positivity
    generalize 1 / 2 ^ 174 * (b - a) = z at *
    generalize w * (b - a) = v at *
    norm_num
    linarith
  have yy0 : 0 ≤ P / F := div_nonneg hP0 hF0.le
  have q0 : 0 ≤ q := by rw [hq]; exact rne_nonneg yy0
  set y := P / F with hy
  have hwle : w ≤ 1 + 2 / 2 ^ 53 := by
    have : w ≤ (2 + 1 / 2 ^ 53) * ((1 + 1 / 2 ^ 53) / 2) := mul_le_mul hDle tle t0 (by positivity)
    refine this.trans ?_
    norm_num
  have hwD : |w - t * (b1 - a1)| ≤ 1 / 2 ^ 53 * ((1 + 1 / 2 ^ 53) / 2) := by
    have e : w - t * (b1 - a1) = (D - (b1 - a1)) * t := by rw [hw]; ring
    rw [e, abs_mul, abs_of_nonneg t0]
    exact mul_le_mul (abs_le.2 hD') tle t0 (by positivity)
  have hyt : |y - t * (b1 - a1)| ≤ 7 / 2 * (1 / 2 ^ 53) + 16 / 2 ^ 106 := by
    rw [abs_le] at hwD ⊢
    norm_num at *
    constructor <;> linarith
  have ycases : y ≤ 1 + 8 / 2 ^ 53 := by
    norm_num at *
    linarith
  have hqy := rne_two (y := y) (by rw [abs_of_nonneg yy0]; exact ycases.trans (by norm_num))
  rw [← hq] at hqy
  have hql : q ≤ 3 / 4 * (b1 - a1) + 1 / 2 ^ 172 := by
    have g1 : w ≤ (1 + 1 / 2 ^ 53) * (b1 - a1) * ((1 + 1 / 2 ^ 53) / 2) :=
      mul_le_mul (by linarith [hD.2]) tle t0 (mul_nonneg (by positivity) (by linarith))
    have g2 := rounding_rne y (by rw [abs_of_nonneg yy0]; exact big1023 (ycases.trans (by norm_num)))
    rw [← hq, abs_of_nonneg yy0, abs_le] at g2
    have g3 : (1 : K) / 2 ^ 1075 ≤ 1 / 2 ^ 174 := eta_le
    generalize (1 : K) / 2 ^ 1075 = η at *
    generalize b1 - a1 = Δ at *
    have : 0 ≤ Δ := by linarith
    norm_num at *
    linarith
  have hz1 : |a1 + q| ≤ 1 := by
    rw [abs_le]
    refine ⟨by linarith, ?_⟩
    rcases h2.eq_or_lt with e | e
    · rw [hzero e.symm]; linarith
    · have := near_one ha1 (lt_of_lt_of_le e h3)
      norm_num at *
      linarith
  have qmid : 1 / 2 ^ 170 ≤ b1 - a1 → q ≤ b1 - a1 := by
    intro h
    norm_num at *
    linarith
  refine ⟨q0, qmid, hzero, ?_⟩
  rcases le_or_gt y 1 with hy1 | hy1
  · have r1 := rne_half (y := y) (by rw [abs_of_nonneg yy0]; exact hy1)
    rw [← hq] at r1
    have r2 := rne_half hz1
    rw [abs_le] at r1 r2 hyt ⊢
    norm_num at *
    constructor <;> linarith
  · have hΔ : 2 - 12 / 2 ^ 53 ≤ b1 - a1 := by
      rw [abs_le] at hyt
      have : t * (b1 - a1) ≤ (1 + 1 / 2 ^ 53) / 2 * (b1 - a1) := mul_le_mul_of_nonneg_right tle (by linarith)
      norm_num at *
      linarith
    have r2 := sum_rel ha1 (show IsF64 q by rw [hq]; exact isF64_rne _)
    have hz2 : |a1 + q| ≤ 24 / 2 ^ 53 := by
      rw [abs_le] at hqy ⊢
      norm_num at *
      constructor <;> linarith
    have r3 : |rne (a1 + q) - (a1 + q)| ≤ 24 / 2 ^ 106 := by
      refine r2.trans ((mul_le_mul_of_nonneg_left hz2 (by positivity)).trans ?_)
      norm_num
    rw [abs_le] at r3 hqy hyt ⊢
    norm_num at *
    constructor <;> linarith

/-- The quotient of `interpolate`. -/
def quot (x a b a1 b1 : K) : K := rne (rne (rne (b1 - a1) * rne (x - a)) / rne (b - a))

theorem quot_neg (x a b a1 b1 : K) : quot (-x) (-a) (-b) a1 b1 = quot x a b a1 b1 := by
  unfold quot
  rw [show -x - -a = -(x - a) by ring, show -b - -a = -(b - a) by ring, rne_odd, rne_odd (b - a), mul_neg, rne_odd (_ * _), neg_div_neg_eq]

theorem quot_neg1 (x a b a1 b1 : K) : quot x a b (-a1) (-b1) = -quot x a b a1 b1 := by
  unfold quot
  rw [show -b1 - -a1 = -(b1 - a1) by ring, rne_odd (b1 - a1), neg_mul, rne_odd (_ * _), neg_div, rne_odd (_ / _)]

/-- `interpolate` starting from the nearer end. -/
theorem interp_near {x a b a1 b1 : K} (hx : IsF64 x) (ha : IsF64 a) (hb : IsF64 b) (ha1 : IsF64 a1) (hb1 : IsF64 b1)
    (hxab : a ≤ x ∧ x ≤ b ∨ b ≤ x ∧ x ≤ a) (hab : 1 / 2 ^ 900 ≤ |b - a|) (hb2 : |b - a| ≤ 2) (h1 : |a1| ≤ 1) (h3 : |b1| ≤ 1)
    (hc : |rne (a - x)| ≤ |rne (b - x)|) :
    (1 / 2 ^ 170 ≤ |b1 - a1| ∨ b1 = a1 → min a1 b1 ≤ rne (a1 + quot x a b a1 b1) ∧ rne (a1 + quot x a b a1 b1) ≤ max a1 b1) ∧
      |rne (a1 + quot x a b a1 b1) - (a1 + (x - a) / (b - a) * (b1 - a1))| ≤ 9 / 4 * (1 / 2 ^ 52) + 1 / 2 ^ 100 := by
  -- the case of growing coordinates
  have up : ∀ x a b : K, IsF64 x → IsF64 a → IsF64 b → a ≤ x → x ≤ b → 1 / 2 ^ 900 ≤ b - a → b - a ≤ 2 → rne (x - a) ≤ rne (b - x) →
      (1 / 2 ^ 170 ≤ |b1 - a1| ∨ b1 = a1 → min a1 b1 ≤ rne (a1 + quot x a b a1 b1) ∧ rne (a1 + quot x a b a1 b1) ≤ max a1 b1) ∧
        |rne (a1 + quot x a b a1 b1) - (a1 + (x - a) / (b - a) * (b1 - a1))| ≤ 9 / 4 * (1 / 2 ^ 52) + 1 / 2 ^ 100 := by
    intro x a b hx ha hb hax hxb hab hb2 hc
    rw [abs_le] at h1 h3
    have mono : ∀ a1 b1 q : K, IsF64 a1 → IsF64 b1 → 0 ≤ q → (1 / 2 ^ 170 ≤ b1 - a1 → q ≤ b1 - a1) → (b1 = a1 → q = 0) → (1 / 2 ^ 170 ≤ b1 - a1 ∨ b1 = a1) →
        a1 ≤ rne (a1 + q) ∧ rne (a1 + q) ≤ b1 := by
      intro a1 b1 q ha1 hb1 h0 h1 h2 h
      have hq : q ≤ b1 - a1 := by
        rcases h with h | h
        · exact h1 h
        · rw [h2 h, h, sub_self]
      constructor
      · have := rne_mono (show a1 ≤ a1 + q by linarith)
        rwa [ha1] at this
      · have := rne_mono (show a1 + q ≤ b1 by linarith)
        rwa [hb1] at this
    rcases le_total a1 b1 with hle | hle
    · obtain ⟨g1, g2, g3, g4⟩ := interp_core hx ha hb ha1 hb1 hax hxb hab hb2 h1.1 hle h3.2 hc
      refine ⟨fun h => ?_, g4⟩
      rw [abs_of_nonneg (by linarith)] at h
      rw [min_eq_left hle, max_eq_right hle]
      exact mono a1 b1 _ ha1 hb1 g1 g2 g3 h
    · obtain ⟨g1, g2, g3, g4⟩ := interp_core hx ha hb (isF64_neg ha1) (isF64_neg hb1) hax hxb hab hb2 (by linarith) (by linarith) (by linarith) hc
      have e := quot_neg1 x a b a1 b1
      unfold quot at e
      rw [e] at g1 g2 g3 g4
      change 0 ≤ -quot x a b a1 b1 at g1
      have e2 : rne (-a1 + -quot x a b a1 b1) = -rne (a1 + quot x a b a1 b1) := by rw [← rne_odd]; congr 1; ring
      constructor
      · intro h
        rw [abs_of_nonpos (by linarith), neg_sub] at h
        rw [min_eq_right hle, max_eq_left hle]
        have := mono (-a1) (-b1) _ (isF64_neg ha1) (isF64_neg hb1) g1 g2 g3 (by
          rcases h with h | h
          · left; linarith
          · right; rw [h])
        rw [e2] at this
        constructor <;> linarith
      · change |rne (-a1 + -quot x a b a1 b1) - _| ≤ _ at g4
        rw [e2, show -rne (a1 + quot x a b a1 b1) - (-a1 + (x - a) / (b - a) * (-b1 - -a1)) =
          -(rne (a1 + quot x a b a1 b1) - (a1 + (x - a) / (b - a) * (b1 - a1))) by ring, abs_neg] at g4
        exact g4
  rcases hxab with ⟨k1, k2⟩ | ⟨k1, k2⟩
  · rw [abs_of_nonneg (show 0 ≤ b - a by linarith)] at hab hb2
    have e : |rne (a - x)| = rne (x - a) := by
      rw [show a - x = -(x - a) by ring, rne_odd, abs_neg, abs_of_nonneg (rne_nonneg (by linarith))]
    rw [e, abs_of_nonneg (rne_nonneg (show 0 ≤ b - x by linarith))] at hc
    exact up x a b hx ha hb k1 k2 hab hb2 hc
  · rw [abs_of_nonpos (show b - a ≤ 0 by linarith)] at hab hb2
    have e : |rne (b - x)| = rne (-b - -x) := by
      rw [show -b - -x = -(b - x) by ring, rne_odd, abs_of_nonpos]
      have := rne_nonneg (show 0 ≤ -(b - x) by linarith)
      rw [rne_odd] at this
      linarith
    rw [e, abs_of_nonneg (rne_nonneg (show 0 ≤ a - x by linarith)), show a - x = -x - -a by ring] at hc
    have := up (-x) (-a) (-b) (isF64_neg hx) (isF64_neg ha) (isF64_neg hb) (by linarith) (by linarith) (by linarith) (by linarith) hc
    rw [quot_neg, show (-x - -a) / (-b - -a) = (x - a) / (b - a) by
      rw [show -x - -a = -(x - a) by ring, show -b - -a = -(b - a) by ring, neg_div_neg_eq]] at this
    exact this

/-- **C79.** The error of `interpolate` between points of the square `[-1,1]²`: at most `2.25` times `2^-52`, and a term of second order. -/
theorem c79_interpolate {x a b a1 b1 : K} (hx : IsF64 x) (ha : IsF64 a) (hb : IsF64 b) (ha1 : IsF64 a1) (hb1 : IsF64 b1)
    (hxab : a ≤ x ∧ x ≤ b ∨ b ≤ x ∧ x ≤ a) (hab : 1 / 2 ^ 900 ≤ |b - a|) (hb2 : |b - a| ≤ 2) (h1 : |a1| ≤ 1) (h3 : |b1| ≤ 1) :
    |interpolate rne x a b a1 b1 - (a1 + (x - a) / (b - a) * (b1 - a1))| ≤ 9 / 4 * (1 / 2 ^ 52) + 1 / 2 ^ 100 ∧
    (1 / 2 ^ 170 ≤ |b1 - a1| ∨ b1 = a1 → min a1 b1 ≤ interpolate rne x a b a1 b1 ∧ interpolate rne x a b a1 b1 ≤ max a1 b1) := by
  have hne : a ≠ b := by
    rintro rfl
    rw [sub_self, abs_zero] at hab
    exact absurd hab (not_le.2 (by positivity))
  have n1 : b - a ≠ 0 := sub_ne_zero.2 hne.symm
  have n2 : a - b ≠ 0 := sub_ne_zero.2 hne
  unfold interpolate
  rw [if_neg hne]
  split_ifs with hc
  · obtain ⟨g1, g2⟩ := interp_near hx ha hb ha1 hb1 hxab hab hb2 h1 h3 hc
    exact ⟨g2, g1⟩
  · obtain ⟨g1, g2⟩ := interp_near hx hb ha hb1 ha1 hxab.symm (by rwa [abs_sub_comm]) (by rwa [abs_sub_comm]) h3 h1 (not_le.1 hc).le
    constructor
    · have e : a1 + (x - a) / (b - a) * (b1 - a1) = b1 + (x - b) / (a - b) * (a1 - b1) := by
        field_simp
        ring
      rw [e]
      exact g2
    · intro h
      rw [min_comm, max_comm]
      exact g1 (by
        rcases h with h | h
        · left; rwa [abs_sub_comm]
        · exact Or.inr h.symm)

/-- **C79.** At the two ends `interpolate` is exact, for all doubles. -/
theorem c79_interpolate_ends {a b a1 b1 : K} (ha : IsF64 a) (hb : IsF64 b) (ha1 : IsF64 a1) (hb1 : IsF64 b1) (hne : a ≠ b) :
    interpolate rne a a b a1 b1 = a1 ∧ interpolate rne b a b a1 b1 = b1 := by
  unfold interpolate
  rw [if_neg hne, if_neg hne]
  constructor
  · rw [sub_self, rne_zero, abs_zero, if_pos (abs_nonneg _), mul_zero, rne_zero, zero_div, rne_zero, add_zero, ha1]
  · have h : rne (a - b) ≠ 0 := by
      intro h
      have h1 := sum_rel ha (isF64_neg hb)
      rw [← sub_eq_add_neg, h, zero_sub, abs_neg] at h1
      have h2 := abs_pos.2 (sub_ne_zero.2 hne)
      norm_num at h1
      linarith
    rw [sub_self, rne_zero, abs_zero, if_neg (not_le.2 (abs_pos.2 h)), mul_zero, rne_zero, zero_div, rne_zero, add_zero, hb1]

end round

namespace Spec

/-- The point is within `err` in each coordinate of a point of the segment. -/
def NearSeg (err a0 b0 a1 b1 p q : K) : Prop := ∃ t, 0 ≤ t ∧ t ≤ 1 ∧ |p - (a0 + t * (b0 - a0))| ≤ err ∧ |q - (a1 + t * (b1 - a1))| ≤ err

/-- An error bound of the interpolation at parameters between `a0` and `b0`. -/
def InterpErr (fl : K → K) (err a0 b0 a1 b1 : K) (c : K) : Prop :=
  a0 ≠ b0 → (a0 ≤ c ∧ c ≤ b0 ∨ b0 ≤ c ∧ c ≤ a0) → |interpolate fl c a0 b0 a1 b1 - (a1 + (c - a0) / (b0 - a0) * (b1 - a1))| ≤ err

end Spec

/-- Moving one coordinate to a value where the line is known, if the other coordinate is beyond the line. -/
theorem near_move {err p p' q v : K} {X Y : K → K} {s t : K} (ht1 : |p - X t| ≤ err) (ht2 : |q - Y t| ≤ err) (hp : p < p') (hs : X s = p')
    (hv : |v - Y s| ≤ err) (hq : v ≤ q) (hord : Y s < Y t → X s ≤ X t) : (|p' - X s| ≤ err ∧ |q - Y s| ≤ err) ∨ (|p' - X t| ≤ err ∧ |q - Y t| ≤ err) := by
  have h0 : 0 ≤ err := (abs_nonneg _).trans hv
  by_cases c : |q - Y s| ≤ err
  · left
    rw [hs, sub_self, abs_zero]
    exact ⟨h0, c⟩
  · right
    refine ⟨?_, ht2⟩
    rw [abs_le] at *
    have : Y s < Y t := by
      by_contra hc
      refine c ⟨?_, ?_⟩ <;> linarith [not_lt.1 hc]
    have := hord this
    constructor <;> linarith

/-- What holds of the bounds during clipping: both ends of the diagonal are near the segment. -/
structure ClipInv (err a0 b0 a1 b1 : K) (neg : Bool) (i0 i1 : R1.Interval K) : Prop where
  le0 : i0.lo ≤ i0.hi
  le1 : i1.lo ≤ i1.hi
  lo0 : min a0 b0 ≤ i0.lo
  hi0 : i0.hi ≤ max a0 b0
  lo1 : min a1 b1 ≤ i1.lo
  hi1 : i1.hi ≤ max a1 b1
  nearLo : NearSeg err a0 b0 a1 b1 i0.lo (if neg then i1.hi else i1.lo)
  nearHi : NearSeg err a0 b0 a1 b1 i0.hi (if neg then i1.lo else i1.hi)

theorem nearSeg_swap {err a0 b0 a1 b1 p q : K} (h : NearSeg err a0 b0 a1 b1 p q) : NearSeg err a1 b1 a0 b0 q p := by
  obtain ⟨t, h1, h2, h3, h4⟩ := h
  exact ⟨t, h1, h2, h4, h3⟩

theorem ClipInv.swap {err a0 b0 a1 b1 : K} {neg : Bool} {i0 i1 : R1.Interval K} (h : ClipInv err a0 b0 a1 b1 neg i0 i1) :
    ClipInv err a1 b1 a0 b0 neg i1 i0 := by
  cases neg
  · exact ⟨h.le1, h.le0, h.lo1, h.hi1, h.lo0, h.hi0, nearSeg_swap h.nearLo, nearSeg_swap h.nearHi⟩
  · exact ⟨h.le1, h.le0, h.lo1, h.hi1, h.lo0, h.hi0, nearSeg_swap h.nearHi, nearSeg_swap h.nearLo⟩

theorem param_of {a0 b0 c : K} (hne : a0 ≠ b0) (h1 : min a0 b0 ≤ c) (h2 : c ≤ max a0 b0) :
    0 ≤ (c - a0) / (b0 - a0) ∧ (c - a0) / (b0 - a0) ≤ 1 ∧ a0 + (c - a0) / (b0 - a0) * (b0 - a0) = c ∧ (a0 ≤ c ∧ c ≤ b0 ∨ b0 ≤ c ∧ c ≤ a0) := by
  have hd : b0 - a0 ≠ 0 := sub_ne_zero.2 hne.symm
  rcases lt_or_gt_of_ne hne with h | h
  · rw [min_eq_left h.le] at h1
    rw [max_eq_right h.le] at h2
    refine ⟨div_nonneg (by linarith) (by linarith), (div_le_one (by linarith)).2 (by linarith), by field_simp; ring, Or.inl ⟨h1, h2⟩⟩
  · rw [min_eq_right h.le] at h1
    rw [max_eq_left h.le] at h2
    refine ⟨div_nonneg_of_nonpos (by linarith) (by linarith), (div_le_one_of_neg (by linarith)).2 (by linarith), by field_simp; ring, Or.inr ⟨h1, h2⟩⟩

theorem slope_ord {d0 d1 : K} {neg : Bool} (hs : Slope d0 d1 neg) (s t a0 a1 : K) :
    (neg = false → a1 + s * d1 < a1 + t * d1 → a0 + s * d0 ≤ a0 + t * d0) ∧ (neg = true → a1 + s * d1 < a1 + t * d1 → a0 + t * d0 ≤ a0 + s * d0) := by
  constructor
  · intro hn h
    have hp : 0 ≤ d0 * d1 := by
      by_contra hc
      have := hs.2 (not_le.1 hc)
      rw [hn] at this; cases this
    have h1 : 0 < (t - s) * d1 := by linarith
    have h2 : 0 ≤ (t - s) * d0 := by
      by_contra hc
      have h3 : (t - s) * d0 < 0 := not_le.1 hc
      have h4 := mul_neg_of_neg_of_pos h3 h1
      have h5 : 0 ≤ (t - s) ^ 2 * (d0 * d1) := mul_nonneg (sq_nonneg _) hp
      have : (t - s) * d0 * ((t - s) * d1) = (t - s) ^ 2 * (d0 * d1) := by ring
      linarith
    linarith
  · intro hn h
    have hp : d0 * d1 ≤ 0 := by
      by_contra hc
      have := hs.1 (not_le.1 hc)
      rw [hn] at this; cases this
    have h1 : 0 < (t - s) * d1 := by linarith
    have h2 : (t - s) * d0 ≤ 0 := by
      by_contra hc
      have h3 : 0 < (t - s) * d0 := not_le.1 hc
      have h4 := mul_pos h3 h1
      have h5 : (t - s) ^ 2 * (d0 * d1) ≤ 0 := mul_nonpos_of_nonneg_of_nonpos (sq_nonneg _) hp
      have : (t - s) * d0 * ((t - s) * d1) = (t - s) ^ 2 * (d0 * d1) := by ring
      linarith
    linarith

theorem clipLow_inv (fl : K → K) {err a0 b0 a1 b1 : K} {neg : Bool} {i0 i1 clip : R1.Interval K} (hs : Slope (b0 - a0) (b1 - a1) neg)
    (H : InterpErr fl err a0 b0 a1 b1 clip.lo) (h : ClipInv err a0 b0 a1 b1 neg i0 i1)
    (hr : (clipLow fl a0 b0 i0 a1 b1 i1 neg clip).2.2 = true) :
    ClipInv err a0 b0 a1 b1 neg (clipLow fl a0 b0 i0 a1 b1 i1 neg clip).1 (clipLow fl a0 b0 i0 a1 b1 i1 neg clip).2.1 := by
  unfold clipLow at hr ⊢
  by_cases c1 : i0.lo < clip.lo
  · rw [if_pos c1] at hr ⊢
    by_cases c2 : i0.hi < clip.lo
    · rw [if_pos c2] at hr; cases hr
    · rw [if_neg c2] at hr ⊢
      simp only at hr ⊢
      have c2 := not_lt.1 c2
      have hne : a0 ≠ b0 := by
        rintro rfl
        have := h.lo0; have := h.hi0
        rw [min_self] at *
        rw [max_self] at *
        linarith
      obtain ⟨s0, s1, hX, hbt⟩ := param_of hne (h.lo0.trans c1.le) (c2.trans h.hi0)
      have hv := H hne hbt
      set s := (clip.lo - a0) / (b0 - a0)
      set v := interpolate fl clip.lo a0 b0 a1 b1
      obtain ⟨t, t0, t1, n1, n2⟩ := h.nearLo
      have hord := slope_ord hs s t a0 a1
      have h0 : 0 ≤ err := (abs_nonneg _).trans hv
      cases neg with
      | false =>
        simp only [Bool.false_eq_true, if_false] at n2
        unfold updateEndpoint at hr ⊢
        rw [if_pos (by rfl)] at hr ⊢
        by_cases c3 : i1.hi < v
        · rw [if_pos c3] at hr; cases hr
        · rw [if_neg c3]
          have c3 := not_lt.1 c3
          have hn := h.nearHi
          simp only [Bool.false_eq_true, if_false] at hn
          by_cases c4 : i1.lo < v
          · simp only [if_pos c4]
            exact ⟨c2, c3, h.lo0.trans c1.le, h.hi0, h.lo1.trans c4.le, h.hi1, ⟨s, s0, s1, by rw [hX, sub_self, abs_zero]; exact h0, hv⟩, hn⟩
          · simp only [if_neg c4]
            refine ⟨c2, h.le1, h.lo0.trans c1.le, h.hi0, h.lo1, h.hi1, ?_, hn⟩
            rcases near_move (X := fun t => a0 + t * (b0 - a0)) (Y := fun t => a1 + t * (b1 - a1)) n1 n2 c1 hX hv (not_lt.1 c4) (hord.1 rfl) with g | g
            · exact ⟨s, s0, s1, g.1, g.2⟩
            · exact ⟨t, t0, t1, g.1, g.2⟩
      | true =>
        simp only [if_true] at n2
        unfold updateEndpoint at hr ⊢
        rw [if_neg (by decide)] at hr ⊢
        by_cases c3 : i1.lo > v
        · rw [if_pos c3] at hr; cases hr
        · rw [if_neg c3]
          have c3 := not_lt.1 c3
          have hn := h.nearHi
          simp only [if_true] at hn
          by_cases c4 : i1.hi > v
          · simp only [if_pos c4]
            exact ⟨c2, c3, h.lo0.trans c1.le, h.hi0, h.lo1, (le_of_lt c4).trans h.hi1, ⟨s, s0, s1, by rw [hX, sub_self, abs_zero]; exact h0, hv⟩, hn⟩
          · simp only [if_neg c4]
            refine ⟨c2, h.le1, h.lo0.trans c1.le, h.hi0, h.lo1, h.hi1, ?_, hn⟩
            have hord' := slope_ord hs t s a0 a1
            rcases near_move (X := fun t => a0 + t * (b0 - a0)) (Y := fun t => -(a1 + t * (b1 - a1))) (q := -i1.hi) (v := -v) n1
              (by rw [neg_sub_neg, abs_sub_comm]; exact n2) c1 hX (by rw [neg_sub_neg, abs_sub_comm]; exact hv) (neg_le_neg (not_lt.1 c4))
              (fun h => hord'.2 rfl (neg_lt_neg_iff.1 h)) with g | g
            · exact ⟨s, s0, s1, g.1, by have := g.2; rwa [neg_sub_neg, abs_sub_comm] at this⟩
            · exact ⟨t, t0, t1, g.1, by have := g.2; rwa [neg_sub_neg, abs_sub_comm] at this⟩
  · rw [if_neg c1]
    exact h

theorem clipHigh_inv (fl : K → K) {err a0 b0 a1 b1 : K} {neg : Bool} {i0 i1 clip : R1.Interval K} (hs : Slope (b0 - a0) (b1 - a1) neg)
    (H : InterpErr fl err a0 b0 a1 b1 clip.hi) (h : ClipInv err a0 b0 a1 b1 neg i0 i1)
    (hr : (clipHigh fl a0 b0 i0 a1 b1 i1 neg clip).2.2 = true) :
    ClipInv err a0 b0 a1 b1 neg (clipHigh fl a0 b0 i0 a1 b1 i1 neg clip).1 (clipHigh fl a0 b0 i0 a1 b1 i1 neg clip).2.1 := by
  unfold clipHigh at hr ⊢
  by_cases c1 : i0.hi > clip.hi
  · rw [if_pos c1] at hr ⊢
    by_cases c2 : i0.lo > clip.hi
    · rw [if_pos c2] at hr; cases hr
    · rw [if_neg c2] at hr ⊢
      simp only at hr ⊢
      have c2 := not_lt.1 c2
      have hne : a0 ≠ b0 := by
        rintro rfl
        have := h.lo0; have := h.hi0
        rw [min_self] at *
        rw [max_self] at *
        linarith
      obtain ⟨s0, s1, hX, hbt⟩ := param_of hne (h.lo0.trans c2) ((le_of_lt c1).trans h.hi0)
      have hv := H hne hbt
      set s := (clip.hi - a0) / (b0 - a0)
      set v := interpolate fl clip.hi a0 b0 a1 b1
      obtain ⟨t, t0, t1, n1, n2⟩ := h.nearHi
      have hord := slope_ord hs s t a0 a1
      have hord' := slope_ord hs t s a0 a1
      have h0 : 0 ≤ err := (abs_nonneg _).trans hv
      have n1' : |-i0.hi - -(a0 + t * (b0 - a0))| ≤ err := by rw [neg_sub_neg, abs_sub_comm]; exact n1
      have hX' : -(a0 + s * (b0 - a0)) = -clip.hi := by rw [hX]
      cases neg with
      | false =>
        simp only [Bool.false_eq_true, if_false] at n2
        unfold updateEndpoint at hr ⊢
        rw [if_neg (by decide)] at hr ⊢
        by_cases c3 : i1.lo > v
        · rw [if_pos c3] at hr; cases hr
        · rw [if_neg c3]
          have c3 := not_lt.1 c3
          have hn := h.nearLo
          simp only [Bool.false_eq_true, if_false] at hn
          by_cases c4 : i1.hi > v
          · simp only [if_pos c4]
            exact ⟨c2, c3, h.lo0, (le_of_lt c1).trans h.hi0, h.lo1, (le_of_lt c4).trans h.hi1, hn, ⟨s, s0, s1, by rw [hX, sub_self, abs_zero]; exact h0, hv⟩⟩
          · simp only [if_neg c4]
            refine ⟨c2, h.le1, h.lo0, (le_of_lt c1).trans h.hi0, h.lo1, h.hi1, hn, ?_⟩
            rcases near_move (X := fun t => -(a0 + t * (b0 - a0))) (Y := fun t => -(a1 + t * (b1 - a1))) (q := -i1.hi) (v := -v) n1'
              (by rw [neg_sub_neg, abs_sub_comm]; exact n2) (neg_lt_neg c1) hX' (by rw [neg_sub_neg, abs_sub_comm]; exact hv) (neg_le_neg (not_lt.1 c4))
              (fun h => neg_le_neg (hord'.1 rfl (neg_lt_neg_iff.1 h))) with g | g
            · exact ⟨s, s0, s1, by have := g.1; rwa [neg_sub_neg, abs_sub_comm] at this, by have := g.2; rwa [neg_sub_neg, abs_sub_comm] at this⟩
            · exact ⟨t, t0, t1, by have := g.1; rwa [neg_sub_neg, abs_sub_comm] at this, by have := g.2; rwa [neg_sub_neg, abs_sub_comm] at this⟩
      | true =>
        simp only [if_true] at n2
        unfold updateEndpoint at hr ⊢
        rw [if_pos (by rfl)] at hr ⊢
        by_cases c3 : i1.hi < v
        · rw [if_pos c3] at hr; cases hr
        · rw [if_neg c3]
          have c3 := not_lt.1 c3
          have hn := h.nearLo
          simp only [if_true] at hn
          by_cases c4 : i1.lo < v
          · simp only [if_pos c4]
            exact ⟨c2, c3, h.lo0, (le_of_lt c1).trans h.hi0, h.lo1.trans c4.le, h.hi1, hn, ⟨s, s0, s1, by rw [hX, sub_self, abs_zero]; exact h0, hv⟩⟩
          · simp only [if_neg c4]
            refine ⟨c2, h.le1, h.lo0, (le_of_lt c1).trans h.hi0, h.lo1, h.hi1, hn, ?_⟩
            rcases near_move (X := fun t => -(a0 + t * (b0 - a0))) (Y := fun t => a1 + t * (b1 - a1)) (q := i1.lo) (v := v) n1'
              n2 (neg_lt_neg c1) hX' hv (not_lt.1 c4) (fun h => neg_le_neg (hord.2 rfl h)) with g | g
            · exact ⟨s, s0, s1, by have := g.1; rwa [neg_sub_neg, abs_sub_comm] at this, g.2⟩
            · exact ⟨t, t0, t1, by have := g.1; rwa [neg_sub_neg, abs_sub_comm] at this, g.2⟩
  · rw [if_neg c1]
    exact h

theorem clipAxis_inv (fl : K → K) {err a0 b0 a1 b1 : K} {neg : Bool} {i0 i1 clip : R1.Interval K} (hs : Slope (b0 - a0) (b1 - a1) neg)
    (Hl : InterpErr fl err a0 b0 a1 b1 clip.lo) (Hh : InterpErr fl err a0 b0 a1 b1 clip.hi) (h : ClipInv err a0 b0 a1 b1 neg i0 i1)
    (hr : (clipBoundAxis fl a0 b0 i0 a1 b1 i1 neg clip).2.2 = true) :
    ClipInv err a0 b0 a1 b1 neg (clipBoundAxis fl a0 b0 i0 a1 b1 i1 neg clip).1 (clipBoundAxis fl a0 b0 i0 a1 b1 i1 neg clip).2.1 := by
  unfold clipBoundAxis at hr ⊢
  simp only at hr ⊢
  have hL := clipLow_inv fl (clip := clip) hs Hl h
  generalize clipLow fl a0 b0 i0 a1 b1 i1 neg clip = r at *
  by_cases c : r.2.2 = true
  · rw [if_pos c] at hr ⊢
    exact clipHigh_inv fl hs Hh (hL c) hr
  · rw [if_neg c] at hr
    exact absurd hr c

/-- **C79.** With rounding, the two points that `clip_edge` returns are near the segment: within `err` in each coordinate, if `err` bounds the
error of the interpolations at the four sides of the rectangle. -/
theorem c79_clipEdge_near (fl : K → K) (err : K) (a b : R2.Point K) (clip : R2.Rect K) (h0 : 0 ≤ err)
    (Hx : ∀ c, c = clip.x.lo ∨ c = clip.x.hi → InterpErr fl err a.x b.x a.y b.y c) (Hy : ∀ c, c = clip.y.lo ∨ c = clip.y.hi → InterpErr fl err a.y b.y a.x b.x c)
    (h : (clipEdge fl a b clip).2.2 = true) :
    InRect clip (clipEdge fl a b clip).1 ∧ InRect clip (clipEdge fl a b clip).2.1 ∧
    NearSeg err a.x b.x a.y b.y (clipEdge fl a b clip).1.x (clipEdge fl a b clip).1.y ∧
    NearSeg err a.x b.x a.y b.y (clipEdge fl a b clip).2.1.x (clipEdge fl a b clip).2.1.y := by
  have hb := pairBox a b
  obtain ⟨⟨x1, x2⟩, y1, y2⟩ := hb
  rw [zero_mul, add_zero, one_mul, add_sub_cancel] at x1 x2 y1 y2
  have hs := slope_of a b
  have hs' : Slope (b.y - a.y) (b.x - a.x) (xor (decide (a.x > b.x)) (decide (a.y > b.y))) := by
    unfold Slope; rw [mul_comm (b.y - a.y)]; exact hs
  set B := R2.Rect.fromPointList [a, b] with hB
  have hin := c79_inside fl a b clip B (by rw [x1, x2]; exact min_le_max) (by rw [y1, y2]; exact min_le_max)
  have nearA : NearSeg err a.x b.x a.y b.y a.x a.y := ⟨0, le_rfl, zero_le_one, by simp [h0], by simp [h0]⟩
  have nearB : NearSeg err a.x b.x a.y b.y b.x b.y := ⟨1, zero_le_one, le_rfl, by simp [h0], by simp [h0]⟩
  have inv : ClipInv err a.x b.x a.y b.y (xor (decide (a.x > b.x)) (decide (a.y > b.y))) B.x B.y := by
    refine ⟨by rw [x1, x2]; exact min_le_max, by rw [y1, y2]; exact min_le_max, x1.ge, x2.le, y1.ge, y2.le, ?_, ?_⟩
    all_goals
      rw [y1, y2]
      first | rw [x1] | rw [x2]
      by_cases cx : a.x > b.x <;> by_cases cy : a.y > b.y
    · simpa [cx, cy, min_eq_right (le_of_lt cx), min_eq_right (le_of_lt cy)] using nearB
    · simpa [cx, cy, min_eq_right (le_of_lt cx), max_eq_right (not_lt.1 cy)] using nearB
    · simpa [cx, cy, min_eq_left (not_lt.1 cx), max_eq_left (le_of_lt cy)] using nearA
    · simpa [cx, cy, min_eq_left (not_lt.1 cx), min_eq_left (not_lt.1 cy)] using nearA
    · simpa [cx, cy, max_eq_left (le_of_lt cx), max_eq_left (le_of_lt cy)] using nearA
    · simpa [cx, cy, max_eq_left (le_of_lt cx), min_eq_left (not_lt.1 cy)] using nearA
    · simpa [cx, cy, max_eq_right (not_lt.1 cx), min_eq_right (le_of_lt cy)] using nearB
    · simpa [cx, cy, max_eq_right (not_lt.1 cx), max_eq_right (not_lt.1 cy)] using nearB
  have fin : (clipEdgeBound fl a b clip B).2 = true → ClipInv err a.x b.x a.y b.y (xor (decide (a.x > b.x)) (decide (a.y > b.y)))
      (clipEdgeBound fl a b clip B).1.x (clipEdgeBound fl a b clip B).1.y := by
    unfold clipEdgeBound
    simp only
    have hX := clipAxis_inv fl (clip := clip.x) hs (Hx _ (Or.inl rfl)) (Hx _ (Or.inr rfl)) inv
    generalize clipBoundAxis fl a.x b.x B.x a.y b.y B.y _ clip.x = r at *
    by_cases c : r.2.2 = true
    · rw [if_neg (by simp [c])]
      have hY := clipAxis_inv fl (clip := clip.y) hs' (Hy _ (Or.inl rfl)) (Hy _ (Or.inr rfl)) (hX c).swap
      generalize clipBoundAxis fl a.y b.y r.2.1 a.x b.x r.1 _ clip.y = p at *
      by_cases c2 : p.2.2 = true
      · rw [if_neg (by simp [c2])]
        intro _
        exact (hY c2).swap
      · rw [if_pos (by simpa using c2)]
        intro h; cases h
    · rw [if_pos (by simpa using c)]
      intro h; cases h
  unfold clipEdge at h ⊢
  simp only [← hB] at h ⊢
  by_cases c : (clipEdgeBound fl a b clip B).2 = true
  · rw [if_neg (by simp [c])]
    obtain ⟨g1, g2, g3⟩ := hin c
    have gi := fin c
    generalize (clipEdgeBound fl a b clip B).1 = r at *
    have corner : ∀ i j : Int, InRect clip (r.vertexIJ i j) := by
      intro i j
      refine (g3 _ ?_).1
      unfold R2.Rect.vertexIJ InRect
      simp only
      split_ifs <;> exact ⟨by first | exact le_rfl | exact g1, by first | exact le_rfl | exact g1, by first | exact le_rfl | exact g2, by first | exact le_rfl | exact g2⟩
    refine ⟨corner _ _, corner _ _, ?_⟩
    have n1 := gi.nearLo
    have n2 := gi.nearHi
    unfold R2.Rect.vertexIJ
    by_cases cx : a.x > b.x <;> by_cases cy : a.y > b.y <;> simp only [cx, cy, decide_true, decide_false, Bool.xor_true, Bool.xor_false, Bool.not_true, Bool.not_false,
      if_true, if_false, Bool.false_eq_true] at n1 n2 ⊢ <;> norm_num <;> first | exact ⟨n1, n2⟩ | exact ⟨n2, n1⟩
  · rw [if_pos (by simpa using c)] at h
    cases h

/-- **C79.** The bound in the code: a segment in the square `[-1,1]²` whose coordinates are equal or not extremely close is clipped within
`2.25` times `2^-52` in each coordinate, up to a term of second order. -/
theorem c79_clipEdge_f64 [FloorRing K] (a b : R2.Point K) (clip : R2.Rect K) (ha : IsF64 a.x ∧ IsF64 a.y) (hb : IsF64 b.x ∧ IsF64 b.y)
    (hc : IsF64 clip.x.lo ∧ IsF64 clip.x.hi ∧ IsF64 clip.y.lo ∧ IsF64 clip.y.hi) (sa : |a.x| ≤ 1 ∧ |a.y| ≤ 1) (sb : |b.x| ≤ 1 ∧ |b.y| ≤ 1)
    (dx : a.x = b.x ∨ 1 / 2 ^ 900 ≤ |b.x - a.x|) (dy : a.y = b.y ∨ 1 / 2 ^ 900 ≤ |b.y - a.y|) (h : (clipEdge rne a b clip).2.2 = true) :
    InRect clip (clipEdge rne a b clip).1 ∧ InRect clip (clipEdge rne a b clip).2.1 ∧
    NearSeg (9 / 4 * (1 / 2 ^ 52) + 1 / 2 ^ 100) a.x b.x a.y b.y (clipEdge rne a b clip).1.x (clipEdge rne a b clip).1.y ∧
    NearSeg (9 / 4 * (1 / 2 ^ 52) + 1 / 2 ^ 100) a.x b.x a.y b.y (clipEdge rne a b clip).2.1.x (clipEdge rne a b clip).2.1.y := by
  have two : ∀ p q : K, |p| ≤ 1 → |q| ≤ 1 → |q - p| ≤ 2 := by
    intro p q h1 h2
    rw [abs_le] at *
    constructor <;> linarith
  refine c79_clipEdge_near rne _ a b clip (by positivity) ?_ ?_ h
  · rintro c hc' hne hbt
    refine (c79_interpolate ?_ ha.1 hb.1 ha.2 hb.2 hbt (dx.resolve_left hne) (two _ _ sa.1 sb.1) sa.2 sb.2).1
    rcases hc' with rfl | rfl
    · exact hc.1
    · exact hc.2.1
  · rintro c hc' hne hbt
    refine (c79_interpolate ?_ ha.2 hb.2 ha.1 hb.1 hbt (dy.resolve_left hne) (two _ _ sa.2 sb.2) sa.1 sb.1).1
    rcases hc' with rfl | rfl
    · exact hc.2.2.1
    · exact hc.2.2.2

/-- A segment that meets the hypotheses and is clipped. -/
example : clipEdge (rne : ℚ → ℚ) ⟨-1, -1⟩ ⟨1, 1⟩ ⟨⟨-1 / 2, 1⟩, ⟨-1, 1⟩⟩ = (⟨-1 / 2, -1 / 2⟩, ⟨1, 1⟩, true) := by
  have h (m : ℤ) (hm : |m| ≤ 2 ^ 53) : rne ((m : ℚ) / 2) = m / 2 := rne_exact (m := m) (k := -1) (by norm_num [div_eq_mul_inv]) hm (by norm_num)
  have h1 := h 1 (by norm_num)
  have h1' := h (-1) (by norm_num)
  have h2 := h 2 (by norm_num)
  have h3 := h 3 (by norm_num)
  have h4 := h 4 (by norm_num)
  norm_num at h1 h1' h2 h3 h4
  have hi : interpolate (rne : ℚ → ℚ) (-1 / 2) (-1) 1 (-1) 1 = -1 / 2 := by
    unfold interpolate
    norm_num [h1, h1', h2, h3, h4, rne_odd (1 / 2 : ℚ), rne_odd (3 / 2 : ℚ), rne_odd (2 : ℚ)]
  norm_num at hi
  norm_num [clipEdge, clipEdgeBound, clipBoundAxis, clipLow, clipHigh, updateEndpoint, R2.Rect.fromPointList, R2.Rect.fromPoints, R2.Rect.addPoint,
    R1.Interval.addPoint, R1.Interval.fromPoint, R1.Interval.isEmpty, R2.Rect.vertexIJ, hi]

end Verif
