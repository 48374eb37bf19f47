import Verif.Model.Metric
import Mathlib.Tactic.Linarith
import Mathlib.Tactic.Ring
import Mathlib.Tactic.NormNum
import Mathlib.Tactic.FieldSimp
import Mathlib.Data.Rat.Floor

/-! # Level selection by a metric: C58 -/

namespace Verif

namespace Spec
variable {K : Type} [LinearOrder K]

/-- `L` is the least of the levels 0 to 30 with `f L ≤ v`, or 30 if there is none (`f` is decreasing). -/
def IsMinLevel (f : Nat → K) (v : K) (L : Nat) : Prop := L ≤ 30 ∧ (∀ l, l < L → v < f l) ∧ (f L ≤ v ∨ L = 30)

/-- `L` is the greatest of the levels 0 to 30 with `v ≤ f L`, or 0 if there is none. -/
def IsMaxLevel (f : Nat → K) (v : K) (L : Nat) : Prop := L ≤ 30 ∧ (∀ l, L < l → l ≤ 30 → f l < v) ∧ (v ≤ f L ∨ L = 0)

end Spec

namespace S2.Metric
open Spec
variable {K : Type} [Field K] [LinearOrder K] [IsStrictOrderedRing K] [FloorRing K]

theorem clampLevel_eq (n : Int) : (n > 30 ∧ clampLevel n = 30) ∨ (n < 0 ∧ clampLevel n = 0) ∨ (0 ≤ n ∧ n ≤ 30 ∧ (clampLevel n : Int) = n) := by
  unfold clampLevel
  split
  · left; exact ⟨by assumption, rfl⟩
  · split
    · right; left; exact ⟨by assumption, rfl⟩
    · right; right; refine ⟨by omega, by omega, by omega⟩

theorem ilogb_pos {x : K} (h : 0 < x) : ilogb x = Int.log 2 x := by
  unfold ilogb; rw [if_neg h.ne', abs_of_pos h]

theorem two_zpow_pos (k : Int) : (0 : K) < (2 : K) ^ k := zpow_pos (by norm_num) k

theorem zpow_le {x : K} (h : 0 < x) (k : Int) : (2 : K) ^ k ≤ x ↔ k ≤ Int.log 2 x := by
  have := Int.zpow_le_iff_le_log (b := 2) (by norm_num) (x := k) h
  simpa using this

/-- The levels that `max_level` finds, in terms of the rounded quotient. -/
theorem maxLevel_quotient {fl : K → K} {m : Metric K} (hd : m.dim = 1 ∨ m.dim = 2) {v : K} (hv : 0 < v) (hq : 0 < fl (m.deriv / v)) :
    ∃ L, m.maxLevel fl v = some L ∧ L ≤ 30 ∧ (∀ l : Nat, L < l → l ≤ 30 → fl (m.deriv / v) < (2 : K) ^ ((m.dim : Int) * l)) ∧
      ((2 : K) ^ ((m.dim : Int) * L) ≤ fl (m.deriv / v) ∨ L = 0) := by
  refine ⟨_, by rw [maxLevel, if_neg (not_le.2 hv)], ?_⟩
  rw [ilogb_pos hq]
  generalize hn : Int.log 2 (fl (m.deriv / v)) = n
  have key : ∀ l : Nat, (2 : K) ^ ((m.dim : Int) * l) ≤ fl (m.deriv / v) ↔ (l : Int) ≤ n / 2 ^ (m.dim - 1) := by
    intro l
    rw [zpow_le hq, hn]
    rcases hd with h | h <;> rw [h] <;> norm_num
    omega
  have key' : ∀ l : Nat, fl (m.deriv / v) < (2 : K) ^ ((m.dim : Int) * l) ↔ ¬ (l : Int) ≤ n / 2 ^ (m.dim - 1) := by
    intro l; rw [← key, not_le]
  simp only [key, key']
  generalize n / 2 ^ (m.dim - 1) = k
  rcases clampLevel_eq k with ⟨h1, h2⟩ | ⟨h1, h2⟩ | ⟨h1, h2, h3⟩
  · rw [h2]; exact ⟨le_refl _, fun l a b => by omega, by omega⟩
  · rw [h2]; exact ⟨by omega, fun l a b => by omega, by omega⟩
  · exact ⟨by omega, fun l a b => by omega, by omega⟩

/-- The levels that `min_level` finds for a one-dimensional metric, in terms of the rounded quotient. -/
theorem minLevel_quotient {fl : K → K} {m : Metric K} (hd : m.dim = 1) {v : K} (hv : 0 ≤ v) (hq : (2 : K) ^ (-1100 : Int) ≤ fl (v / m.deriv)) :
    ∃ L, m.minLevel fl v = some L ∧ IsMinLevel (fun l => (2 : K) ^ (-(l : Int))) (fl (v / m.deriv)) L := by
  have hq0 : 0 < fl (v / m.deriv) := lt_of_lt_of_le (two_zpow_pos _) hq
  rw [zpow_le hq0] at hq
  unfold IsMinLevel
  have key : ∀ l : Nat, (2 : K) ^ (-(l : Int)) ≤ fl (v / m.deriv) ↔ -(l : Int) ≤ Int.log 2 (fl (v / m.deriv)) := fun l => zpow_le hq0 _
  have key' : ∀ l : Nat, fl (v / m.deriv) < (2 : K) ^ (-(l : Int)) ↔ ¬ -(l : Int) ≤ Int.log 2 (fl (v / m.deriv)) := by
    intro l; rw [← key, not_le]
  simp only [key, key']
  unfold minLevel negI32
  rw [if_neg (not_lt.2 hv), ilogb_pos hq0, hd]
  generalize Int.log 2 (fl (v / m.deriv)) = n at *
  rw [if_neg (by omega)]
  refine ⟨clampLevel (-n), by simp, ?_⟩
  rcases clampLevel_eq (-n) with ⟨h1, h2⟩ | ⟨h1, h2⟩ | ⟨h1, h2, h3⟩
  · rw [h2]; exact ⟨le_refl _, fun l a => by omega, by omega⟩
  · rw [h2]; exact ⟨by omega, fun l a => by omega, by omega⟩
  · exact ⟨by omega, fun l a => by omega, by omega⟩

theorem value_eq (m : Metric K) (l : Nat) : m.value l = m.deriv * ((2 : K) ^ ((m.dim : Int) * l))⁻¹ := by
  unfold value
  rw [neg_mul, zpow_neg]

/-- **C58.** With an exact quotient, `max_level` is the greatest level whose metric value is at least `v`. -/
theorem c58_maxLevel {m : Metric K} (hd : m.dim = 1 ∨ m.dim = 2) (hm : 0 < m.deriv) {v : K} (hv : 0 < v) :
    ∃ L, m.maxLevel id v = some L ∧ IsMaxLevel m.value v L := by
  obtain ⟨L, h1, h2, h3, h4⟩ := maxLevel_quotient (fl := id) hd hv (div_pos hm hv)
  have key : ∀ l : Nat, m.value l < v ↔ m.deriv / v < (2 : K) ^ ((m.dim : Int) * l) := by
    intro l
    have hp : (0 : K) < (2 : K) ^ ((m.dim : Int) * l) := two_zpow_pos _
    rw [value_eq, ← div_eq_mul_inv, div_lt_iff₀ hp, div_lt_iff₀ hv, mul_comm]
  refine ⟨L, h1, h2, fun l a b => (key l).2 (h3 l a b), h4.imp (fun h => ?_) _root_.id⟩
  rw [← not_lt, key, not_lt]
  exact h

/-- **C58.** With an exact quotient, `min_level` of a one-dimensional metric is the least level whose metric value is at
most `v`. (`v` at least `2^(-1100)` times the derivative: every positive double over a derivative of the table.) -/
theorem c58_minLevel {m : Metric K} (hd : m.dim = 1) (hm : 0 < m.deriv) {v : K} (hv : m.deriv * (2 : K) ^ (-1100 : Int) ≤ v) :
    ∃ L, m.minLevel id v = some L ∧ IsMinLevel m.value v L := by
  have hv0 : 0 ≤ v := le_trans (mul_pos hm (two_zpow_pos _)).le hv
  obtain ⟨L, h1, h2, h3, h4⟩ := minLevel_quotient (fl := id) hd hv0 (by rw [id, le_div_iff₀ hm, mul_comm]; exact hv)
  have key : ∀ l : Nat, v < m.value l ↔ v / m.deriv < (2 : K) ^ (-(l : Int)) := by
    intro l
    rw [value_eq, hd, div_lt_iff₀ hm, mul_comm, zpow_neg, Nat.cast_one, one_mul]
  refine ⟨L, h1, h2, fun l a => (key l).2 (h3 l a), h4.imp (fun h => ?_) _root_.id⟩
  rw [← not_lt, key, not_lt]
  exact h

/-- **C58.** For a two-dimensional metric `min_level` is the right level or one less. -/
theorem c58_minLevel_area {m : Metric K} (hd : m.dim = 2) (hm : 0 < m.deriv) {v : K} (hv : m.deriv * (2 : K) ^ (-1100 : Int) ≤ v) :
    ∃ L, m.minLevel id v = some L ∧ (IsMinLevel m.value v L ∨ IsMinLevel m.value v (L + 1)) := by
  have hv0 : 0 < v := lt_of_lt_of_le (mul_pos hm (two_zpow_pos _)) hv
  have hq0 : 0 < v / m.deriv := div_pos hv0 hm
  have hq : -1100 ≤ Int.log 2 (v / m.deriv) := by
    rw [← zpow_le hq0, le_div_iff₀ hm, mul_comm]; exact hv
  have key' : ∀ l : Nat, v < m.value l ↔ ¬ -(2 * l : Int) ≤ Int.log 2 (v / m.deriv) := by
    intro l
    rw [value_eq, hd, ← zpow_le hq0, not_le, div_lt_iff₀ hm, mul_comm, zpow_neg]
    push_cast
    rfl
  have key : ∀ l : Nat, m.value l ≤ v ↔ -(2 * l : Int) ≤ Int.log 2 (v / m.deriv) := by
    intro l; rw [← not_lt, key', not_not]
  unfold IsMinLevel
  simp only [key, key']
  unfold minLevel negI32
  rw [if_neg (not_lt.2 hv0.le), id, ilogb_pos hq0, hd]
  generalize Int.log 2 (v / m.deriv) = n at *
  rw [if_neg (by omega)]
  refine ⟨clampLevel (-n / 2), by simp, ?_⟩
  rcases clampLevel_eq (-n / 2) with ⟨h1, h2⟩ | ⟨h1, h2⟩ | ⟨h1, h2, h3⟩
  · left; rw [h2]; exact ⟨le_refl _, fun l a => by omega, by omega⟩
  · left; rw [h2]; exact ⟨by omega, fun l a => by omega, by omega⟩
  · by_cases h : clampLevel (-n / 2) = 30 ∨ 2 ∣ n
    · left; exact ⟨by omega, fun l a => by omega, by omega⟩
    · right; exact ⟨by omega, fun l a => by omega, by omega⟩

theorem log_zpow' (k : Int) : Int.log 2 ((2 : K) ^ k) = k := by
  have := Int.log_zpow (R := K) (b := 2) (by norm_num) k
  simpa using this

/-- **C58.** It can be one less: for every two-dimensional metric, an eighth of the derivative gives level 1, whose value is
larger. -/
theorem c58_minLevel_area_wrong {m : Metric K} (hd : m.dim = 2) (hm : 0 < m.deriv) :
    m.minLevel id (m.deriv / 8) = some 1 ∧ m.deriv / 8 < m.value 1 := by
  have h8 : m.deriv / 8 / m.deriv = (2 : K) ^ (-3 : Int) := by
    field_simp
    norm_num
  have hp : (0 : K) < (2 : K) ^ (-3 : Int) := two_zpow_pos _
  constructor
  · unfold minLevel negI32
    rw [if_neg (not_lt.2 (by positivity)), id, h8, ilogb_pos hp, log_zpow', hd]
    rfl
  · rw [value_eq, hd]
    norm_num
    rw [div_eq_mul_inv]
    refine mul_lt_mul_of_pos_left ?_ hm
    norm_num

/-- **C58.** `min_level(0.0)` panics (with overflow checks), though level 30 is documented. -/
theorem c58_minLevel_zero {fl : K → K} (h0 : fl 0 = 0) (m : Metric K) : m.minLevel fl 0 = none := by
  unfold minLevel negI32 ilogb
  simp [h0]

/-- **C58.** Both levels are at most 30, for every value and rounding. -/
theorem c58_range {fl : K → K} (m : Metric K) (v : K) :
    (∀ L, m.minLevel fl v = some L → L ≤ 30) ∧ ∃ L, m.maxLevel fl v = some L ∧ L ≤ 30 := by
  have hc : ∀ n, clampLevel n ≤ 30 := by
    intro n
    rcases clampLevel_eq n with ⟨_, h⟩ | ⟨_, h⟩ | ⟨_, _, h⟩ <;> omega
  constructor
  · intro L
    unfold minLevel
    split
    · intro h; cases h; exact le_refl _
    · intro h
      cases hn : negI32 (ilogb (fl (v / m.deriv))) with
      | none => simp [hn] at h
      | some n =>
        simp only [hn, Option.bind_eq_bind, Option.bind_some, Option.some.injEq] at h
        rw [← h]; exact hc _
  · unfold maxLevel
    split
    · exact ⟨30, rfl, le_refl _⟩
    · exact ⟨_, rfl, hc _⟩

/-- **C58.** `closest_level` of a one-dimensional metric, in exact arithmetic: the value at the level found and `v` differ by a
factor of at most the square root of two, unless the level is 0 or 30. -/
theorem c58_closestLevel {m : Metric K} (hd : m.dim = 1) (hm : 0 < m.deriv) {s : K} (hs : 0 < s) (hs2 : s * s = 2) {v : K}
    (hv : m.deriv * (2 : K) ^ (-1100 : Int) ≤ s * v) :
    ∃ L, m.closestLevel id s v = some L ∧ L ≤ 30 ∧ (L = 0 ∨ v < s * m.value L) ∧ (L = 30 ∨ m.value L ≤ s * v) := by
  obtain ⟨L, h1, h2, h3, h4⟩ := c58_minLevel hd hm hv
  refine ⟨L, ?_, h2, ?_, h4.symm⟩
  · unfold closestLevel
    rw [hd]
    exact h1
  · rcases Nat.eq_zero_or_pos L with h | h
    · exact Or.inl h
    · right
      have h5 := h3 (L - 1) (by omega)
      have e : m.value (L - 1) = 2 * m.value L := by
        rw [value_eq, value_eq, hd]
        obtain ⟨k, rfl⟩ : ∃ k, L = k + 1 := ⟨L - 1, by omega⟩
        rw [Nat.add_sub_cancel]
        push_cast
        rw [one_mul, one_mul, zpow_add₀ (by norm_num : (2 : K) ≠ 0)]
        have : (2 : K) ^ (k : Int) ≠ 0 := (two_zpow_pos _).ne'
        field_simp
      rw [e, ← hs2, mul_assoc] at h5
      exact lt_of_mul_lt_mul_left h5 hs.le

/-! ## Examples -/

example : (⟨1, 4 / 3⟩ : Metric ℚ).dim = 1 ∧ (0 : ℚ) < (⟨1, 4 / 3⟩ : Metric ℚ).deriv ∧ (⟨1, 4 / 3⟩ : Metric ℚ).value 3 = 1 / 6 := by
  norm_num [value]

example : (⟨2, 1⟩ : Metric ℚ).minLevel id (1 / 8) = some 1 := by
  have := (c58_minLevel_area_wrong (m := (⟨2, 1⟩ : Metric ℚ)) rfl (by norm_num)).1
  simpa using this

end S2.Metric
end Verif
