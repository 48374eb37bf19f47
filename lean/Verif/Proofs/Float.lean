import Verif.Model.Float
import Mathlib.Data.Int.Log
import Mathlib.Algebra.Order.Round
import Mathlib.Tactic.Linarith
import Mathlib.Tactic.Positivity
import Mathlib.Tactic.FieldSimp
import Mathlib.Tactic.Ring

/-! # Instances of `Rounding` -/

namespace Verif

/-- Exact arithmetic is a rounding. -/
theorem rounding_id {K : Type} [Field K] [LinearOrder K] [IsStrictOrderedRing K] : Rounding (_root_.id : K → K) := by
  intro x _
  simp only [_root_.id, sub_self, abs_zero]
  positivity

/-- Rounding to the nearest `f64` (53 significant bits, exponent at least -1074), without the overflow to
infinity. -/
def roundF64 {K : Type} [Field K] [LinearOrder K] [FloorRing K] (x : K) : K :=
  let e := max (Int.log 2 |x|) (-1022)
  (round (x / 2 ^ (e - 52)) : K) * 2 ^ (e - 52)

/-- The rounding of IEEE 754 binary64 meets the hypothesis of the theorems about floating-point code. -/
theorem rounding_f64 {K : Type} [Field K] [LinearOrder K] [IsStrictOrderedRing K] [FloorRing K] : Rounding (roundF64 : K → K) := by
  intro x _
  by_cases hx : x = 0
  · have h0 : roundF64 x - x = 0 := by
      rw [hx, roundF64, zero_div, round_zero, Int.cast_zero, zero_mul, sub_self]
    rw [h0, abs_zero]
    positivity
  unfold roundF64
  dsimp only
  set e := max (Int.log 2 |x|) (-1022) with he
  have hp : (0:K) < 2 ^ (e - 52) := zpow_pos (by norm_num) _
  have h1 : |(round (x / 2 ^ (e - 52)) : K) * 2 ^ (e - 52) - x| ≤ 1 / 2 * 2 ^ (e - 52) := by
    have := abs_sub_round (x / 2 ^ (e - 52))
    have e1 : (round (x / 2 ^ (e - 52)) : K) * 2 ^ (e - 52) - x
        = -((x / 2 ^ (e - 52) - round (x / 2 ^ (e - 52))) * 2 ^ (e - 52)) := by field_simp; ring
    rw [e1, abs_neg, abs_mul, abs_of_pos hp]
    exact mul_le_mul_of_nonneg_right this hp.le
  refine h1.trans ?_
  have e53 : (1:K) / 2 * 2 ^ (e - 52) = 2 ^ e / 2 ^ 53 := by
    rw [zpow_sub₀ (by norm_num)]
    norm_num
    ring
  rw [e53]
  rcases max_choice (Int.log 2 |x|) (-1022) with h | h
  · have hlog := Int.zpow_log_le_self (b := 2) (r := |x|) (by norm_num) (abs_pos.2 hx)
    rw [he, h]
    have : ((2:ℕ):K) ^ Int.log 2 |x| / 2 ^ 53 ≤ |x| / 2 ^ 53 := by gcongr
    push_cast at this
    exact this.trans (le_add_of_nonneg_right (by positivity))
  · rw [he, h]
    have h2 : (2:K) ^ (-1022 : ℤ) / 2 ^ 53 = 1 / 2 ^ 1075 := by
      rw [zpow_neg, div_eq_div_iff (by positivity) (by positivity), show (1022:ℤ) = ((1022:ℕ):ℤ) by norm_num, zpow_natCast, inv_mul_eq_div,
        div_eq_iff (by positivity), one_mul, ← pow_add]
    rw [h2]
    have h3 : (0:K) ≤ |x| / 2 ^ 53 := by positivity
    linarith

end Verif
