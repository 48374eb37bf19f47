import Verif.Model.Consts
import Mathlib.Tactic.NormNum
import Mathlib.Order.Basic
import Mathlib.Algebra.Order.Group.Abs
import Mathlib.Algebra.Order.Field.Basic
import Mathlib.Algebra.Order.Ring.Rat

/-! # C67: `clamp` -/

namespace Verif

variable {α : Type} [LinearOrder α]

/-- **C67.** The result lies between the bounds. -/
theorem c67_clamp_range {v lo hi : α} (h : lo ≤ hi) : lo ≤ clamp v lo hi ∧ clamp v lo hi ≤ hi := by
  unfold clamp
  split
  · exact ⟨le_refl _, h⟩
  · split
    · exact ⟨h, le_refl _⟩
    · exact ⟨not_lt.1 ‹_›, not_lt.1 ‹_›⟩

/-- **C67.** A value in the range is not changed. -/
theorem c67_clamp_id {v lo hi : α} (h1 : lo ≤ v) (h2 : v ≤ hi) : clamp v lo hi = v := by
  unfold clamp
  rw [if_neg (not_lt.2 h1), if_neg (not_lt.2 h2)]

/-- **C67.** Going from `v` to any value `x` of the range, one passes the result. -/
theorem c67_clamp_between {v lo hi x : α} (h1 : lo ≤ x) (h2 : x ≤ hi) :
    (v ≤ clamp v lo hi ∧ clamp v lo hi ≤ x) ∨ (x ≤ clamp v lo hi ∧ clamp v lo hi ≤ v) := by
  unfold clamp
  split
  · exact Or.inl ⟨le_of_lt ‹_›, h1⟩
  · split
    · exact Or.inr ⟨h2, le_of_lt ‹_›⟩
    · exact (le_total v x).elim (fun h => Or.inl ⟨le_refl _, h⟩) (fun h => Or.inr ⟨h, le_refl _⟩)

/-- **C67.** On an ordered field the result is a nearest value of the range. -/
theorem c67_clamp_nearest {K : Type} [Field K] [LinearOrder K] [IsStrictOrderedRing K] {v lo hi x : K}
    (h1 : lo ≤ x) (h2 : x ≤ hi) : |clamp v lo hi - v| ≤ |x - v| := by
  rcases c67_clamp_between (v := v) h1 h2 with ⟨a, b⟩ | ⟨a, b⟩
  · rw [abs_of_nonneg (sub_nonneg.2 a), abs_of_nonneg (sub_nonneg.2 (a.trans b))]
    exact sub_le_sub_right b v
  · rw [abs_of_nonpos (sub_nonpos.2 b), abs_of_nonpos (sub_nonpos.2 (a.trans b))]
    exact neg_le_neg (sub_le_sub_right a v)

example : clamp (7 : ℚ) 2 5 = 5 ∧ clamp (1 : ℚ) 2 5 = 2 ∧ clamp (3 : ℚ) 2 5 = 3 := by
  refine ⟨?_, ?_, ?_⟩ <;> unfold clamp <;> norm_num
example : |clamp (7 : ℚ) 2 5 - 7| ≤ |4 - 7| := c67_clamp_nearest (by norm_num) (by norm_num)

end Verif
