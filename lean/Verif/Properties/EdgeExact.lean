import Verif.Model.EdgeClip
import Verif.Proofs.RNE

/-!
# Comparisons that are exact in spite of rounding: C78

`fl` is the rounding of IEEE 754 (to nearest, ties to even). The numbers are arbitrary finite doubles.
-/

namespace Verif
open Spec EdgeClip
variable {K : Type} [Field K] [LinearOrder K] [IsStrictOrderedRing K] [FloorRing K]

namespace Spec

/-- A finite double: a number that rounding does not change. -/
def IsF64 (x : K) : Prop := rne x = x

end Spec

theorem isF64_neg {x : K} (h : IsF64 x) : IsF64 (-x) := by unfold IsF64 at *; rw [rne_odd, h]

theorem isF64_abs {x : K} (h : IsF64 x) : IsF64 |x| := by
  rcases abs_choice x with e | e <;> rw [e]
  · exact h
  · exact isF64_neg h

theorem isF64_zero : IsF64 (0 : K) := rne_zero

theorem isF64_rne (x : K) : IsF64 (rne x) := rne_rne x

/-- Every double is a multiple of its last place. -/
theorem isF64_ulp {x : K} (h : IsF64 x) : ∃ n : ℤ, x = n * 2 ^ ulpExp x := ⟨_, h.symm⟩

theorem ulpExp_ge (x : K) : -1074 ≤ ulpExp x := by unfold ulpExp; omega

/-- A double is a multiple of the last place of a smaller one. -/
theorem isF64_mul {v w : K} (hv : 0 < v) (hvw : v ≤ w) (hw : IsF64 w) : ∃ n : ℤ, w = n * 2 ^ ulpExp v := by
  obtain ⟨n, hn⟩ := isF64_ulp hw
  obtain ⟨k, hk⟩ := Int.eq_ofNat_of_zero_le (sub_nonneg.2 (ulpExp_mono hv hvw))
  refine ⟨n * 2 ^ k, ?_⟩
  have e : ulpExp w = (k : ℤ) + ulpExp v := by omega
  rw [e, two_zpow_add, two_zpow_nat] at hn
  push_cast
  rw [mul_assoc]
  exact hn

/-- Sterbenz: the difference of two doubles within a factor of two is a double. -/
theorem sterbenz {v w : K} (hv : IsF64 v) (hw : IsF64 w) (h0 : 0 ≤ v) (h1 : v ≤ w) (h2 : w ≤ 2 * v) : IsF64 (w - v) := by
  rcases h0.eq_or_lt with h0 | h0
  · rw [← h0, sub_zero]; exact hw
  obtain ⟨m, hm⟩ := isF64_mul h0 le_rfl hv
  obtain ⟨n, hn⟩ := isF64_mul h0 h1 hw
  have hp := two_zpow_pos (K := K) (ulpExp v)
  refine rne_exact (m := n - m) (k := ulpExp v) (by push_cast; linarith) ?_ (ulpExp_ge v)
  have e : ((n - m : ℤ) : K) * 2 ^ ulpExp v = w - v := by push_cast; linarith
  have hlt := lt_ulp h0
  rw [two_zpow_add] at hlt
  have h3 : ((n - m : ℤ) : K) * 2 ^ ulpExp v < 2 ^ (53 : ℤ) * 2 ^ ulpExp v := by linarith
  have h4 := lt_of_mul_lt_mul_right h3 hp.le
  have h5 : 0 ≤ ((n - m : ℤ) : K) := by
    by_contra h
    nlinarith [not_le.1 h]
  rw [abs_le]
  have e53 : (2 : K) ^ (53 : ℤ) = ((2 ^ 53 : ℤ) : K) := by norm_num
  rw [e53] at h4
  have h6 : n - m < 2 ^ 53 := by exact_mod_cast h4
  have h7 : 0 ≤ n - m := by exact_mod_cast h5
  constructor <;> linarith

/-- Below half of a double, the rounded difference stays above. -/
theorem lt_rne_sub {v w : K} (hv : IsF64 v) (hw : IsF64 w) (h0 : 0 ≤ v) (h2 : 2 * v < w) : v < rne (w - v) := by
  rcases h0.eq_or_lt with h0 | h0
  · rw [← h0, sub_zero, hw]; linarith
  obtain ⟨m, hm⟩ := isF64_mul h0 le_rfl hv
  obtain ⟨n, hn⟩ := isF64_mul h0 (by linarith) hw
  have hp := two_zpow_pos (K := K) (ulpExp v)
  have h3 : (2 * m : ℤ) < n := by
    have : ((2 * m : ℤ) : K) * 2 ^ ulpExp v < n * 2 ^ ulpExp v := by push_cast; linarith
    exact_mod_cast lt_of_mul_lt_mul_right this hp.le
  have h4 : v + 2 ^ ulpExp v ≤ w - v := by
    have : ((2 * m + 1 : ℤ) : K) ≤ n := by exact_mod_cast h3
    push_cast at this
    nlinarith
  have h5 : IsF64 (v + 2 ^ ulpExp v) := by
    refine rne_exact (m := m + 1) (k := ulpExp v) (by push_cast; linarith) ?_ (ulpExp_ge v)
    have hlt := lt_ulp h0
    rw [two_zpow_add] at hlt
    have e53 : (2 : K) ^ (53 : ℤ) = ((2 ^ 53 : ℤ) : K) := by norm_num
    rw [e53] at hlt
    have h6 : (m : K) * 2 ^ ulpExp v < ((2 ^ 53 : ℤ) : K) * 2 ^ ulpExp v := by linarith
    have h7 : m < 2 ^ 53 := by exact_mod_cast lt_of_mul_lt_mul_right h6 hp.le
    have h8 : 0 < m := by
      have : (0 : K) * 2 ^ ulpExp v < m * 2 ^ ulpExp v := by rw [zero_mul]; linarith
      exact_mod_cast lt_of_mul_lt_mul_right this hp.le
    rw [abs_le]
    constructor <;> linarith
  have := rne_mono h4
  rw [h5] at this
  linarith

/-- Principle B for non-negative numbers, first form. -/
theorem sum_lt_cases {a b c : K} (ha : IsF64 a) (hb : IsF64 b) (hc : IsF64 c) (a0 : 0 ≤ a) (b0 : 0 ≤ b) (h : a + b < c) :
    a < rne (c - b) ∨ b < rne (c - a) := by
  have key : ∀ a b : K, IsF64 b → 0 ≤ a → a ≤ b → a + b < c → a < rne (c - b) := by
    intro a b hb a0 hab h
    by_cases h2 : 2 * b < c
    · exact hab.trans_lt (lt_rne_sub hb hc (a0.trans hab) h2)
    · have : IsF64 (c - b) := sterbenz hb hc (a0.trans hab) (by linarith) (not_lt.1 h2)
      rw [this]; linarith
  rcases le_total a b with hab | hab
  · exact Or.inl (key a b hb a0 hab h)
  · exact Or.inr (key b a ha b0 hab (by linarith))

/-- Principle B for non-negative numbers, second form. -/
theorem lt_sum_cases {a b c : K} (ha : IsF64 a) (hb : IsF64 b) (hc : IsF64 c) (a0 : 0 ≤ a) (b0 : 0 ≤ b) (h : c < a + b) :
    rne (c - b) < a ∨ rne (c - a) < b := by
  have key : ∀ a b : K, IsF64 a → IsF64 b → 0 ≤ b → c < a + b → 0 < a → c ≤ 2 * b → rne (c - b) < a := by
    intro a b ha hb b0 h a0 h2
    rcases le_total b c with hbc | hbc
    · have : IsF64 (c - b) := sterbenz hb hc b0 hbc h2
      rw [this]; linarith
    · have := rne_mono (show c - b ≤ 0 by linarith)
      rw [rne_zero] at this
      linarith
  rcases a0.eq_or_lt with a0 | a0
  · right
    rw [← a0, sub_zero, hc]; linarith
  rcases b0.eq_or_lt with b0 | b0
  · left
    rw [← b0, sub_zero, hc]; linarith
  rcases le_total a b with hab | hab
  · exact Or.inl (key a b ha hb b0.le h a0 (by linarith))
  · exact Or.inr (key b a hb ha a0.le (by linarith) b0 (by linarith))

/-- Principle B: a sum that is less than a number is seen to be less by one of three comparisons. -/
theorem principleB {u v w : K} (hu : IsF64 u) (hv : IsF64 v) (hw : IsF64 w) (h : u + v < w) :
    rne (u + v) < w ∨ u < rne (w - v) ∨ v < rne (w - u) := by
  have o : ∀ x y : K, rne (-x + y) = -rne (x - y) := fun x y => by rw [← rne_odd]; congr 1; ring
  have hu' := isF64_neg hu
  have hv' := isF64_neg hv
  have hw' := isF64_neg hw
  rcases le_total 0 u with u0 | u0 <;> rcases le_total 0 v with v0 | v0
  · exact Or.inr (sum_lt_cases hu hv hw u0 v0 h)
  · rcases le_total 0 w with w0 | w0
    · rcases lt_sum_cases hw hv' hu w0 (by linarith) (by linarith) with h | h
      · left; rwa [sub_neg_eq_add] at h
      · right; right
        have := rne_odd (u - w)
        rw [neg_sub] at this
        rw [this]; linarith
    · rcases sum_lt_cases hu hw' hv' u0 (by linarith) (by linarith) with h | h
      · right; left
        rwa [show -v - -w = w - v by ring] at h
      · left
        have := rne_odd (-v - u)
        rw [show -(-v - u) = u + v by ring] at this
        rw [this]; linarith
  · rcases le_total 0 w with w0 | w0
    · rcases lt_sum_cases hw hu' hv w0 (by linarith) (by linarith) with h | h
      · left; rwa [sub_neg_eq_add, add_comm] at h
      · right; left
        have := rne_odd (v - w)
        rw [neg_sub] at this
        rw [this]; linarith
    · rcases sum_lt_cases hv hw' hu' v0 (by linarith) (by linarith) with h | h
      · right; right
        rwa [show -u - -w = w - u by ring] at h
      · left
        have := rne_odd (-u - v)
        rw [show -(-u - v) = u + v by ring] at this
        rw [this]; linarith
  · rcases le_total 0 w with w0 | w0
    · rcases u0.eq_or_lt with u1 | u1
      · left
        rw [u1, zero_add, hv]; linarith
      · right; left
        have := rne_mono (show (0 : K) ≤ w - v by linarith)
        rw [rne_zero] at this
        linarith
    · rcases lt_sum_cases hu' hv' hw' (by linarith) (by linarith) (by linarith) with h | h
      · right; left
        have := rne_odd (-w - -v)
        rw [show -(-w - -v) = w - v by ring] at this
        rw [this]; linarith
      · right; right
        have := rne_odd (-w - -u)
        rw [show -(-w - -u) = w - u by ring] at this
        rw [this]; linarith

/-- **C78.** `sum_equal` is exact: true if and only if `u + v` is `w`, for all doubles. -/
theorem c78_sumEqual {u v w : K} (hu : IsF64 u) (hv : IsF64 v) (hw : IsF64 w) : sumEqual rne u v w = true ↔ u + v = w := by
  unfold sumEqual
  rw [Bool.and_eq_true, Bool.and_eq_true, decide_eq_true_eq, decide_eq_true_eq, decide_eq_true_eq]
  constructor
  · rintro ⟨⟨h1, h2⟩, h3⟩
    rcases lt_trichotomy (u + v) w with h | h | h
    · rcases principleB hu hv hw h with h | h | h <;> linarith
    · exact h
    · have := principleB (isF64_neg hu) (isF64_neg hv) (isF64_neg hw) (by linarith)
      rw [show -u + -v = -(u + v) by ring, show -w - -v = -(w - v) by ring, show -w - -u = -(w - u) by ring, rne_odd, rne_odd, rne_odd] at this
      rcases this with h | h | h <;> linarith
  · intro h
    refine ⟨⟨by rw [h, hw], ?_⟩, ?_⟩
    · rw [show w - v = u by linarith, hu]
    · rw [show w - u = v by linarith, hv]

/-- The hypotheses hold, and the exact answer is not that of the naive comparison: `1 + 2^-60` rounds to one. -/
example : sumEqual rne (1 : ℚ) (1 / 2 ^ 60) 1 = false ∧ sumEqual rne (1 : ℚ) (1 / 2 ^ 52) (1 + 1 / 2 ^ 52) = true := by
  have h1 : IsF64 (1 : ℚ) := rne_one
  have h2 : IsF64 (1 / 2 ^ 60 : ℚ) := rne_exact (m := 1) (k := -60) (by norm_num [zpow_neg]) (by norm_num) (by norm_num)
  have h3 : IsF64 (1 / 2 ^ 52 : ℚ) := rne_exact (m := 1) (k := -52) (by norm_num [zpow_neg]) (by norm_num) (by norm_num)
  have h4 : IsF64 (1 + 1 / 2 ^ 52 : ℚ) := rne_exact (m := 2 ^ 52 + 1) (k := -52) (by norm_num [zpow_neg]) (by norm_num) (by norm_num)
  refine ⟨?_, (c78_sumEqual h1 h3 h4).2 rfl⟩
  rw [← Bool.not_eq_true, c78_sumEqual h1 h2 h1]
  norm_num

/-- **C78.** `intersects_face` is exact: true if and only if the plane with this normal meets the square `[-1,1] × [-1,1] × {1}`. -/
theorem c78_intersectsFace {n : Vec K} (hx : IsF64 n.x) (hy : IsF64 n.y) (hz : IsF64 n.z) :
    intersectsFace rne n = true ↔ ∃ u v : K, |u| ≤ 1 ∧ |v| ≤ 1 ∧ n.x * u + n.y * v + n.z = 0 := by
  have h1 : intersectsFace rne n = true ↔ |n.z| ≤ |n.x| + |n.y| := by
    unfold intersectsFace
    rw [Bool.and_eq_true, decide_eq_true_eq, decide_eq_true_eq]
    constructor
    · rintro ⟨h1, h2⟩
      by_contra h
      rcases sum_lt_cases (isF64_abs hx) (isF64_abs hy) (isF64_abs hz) (abs_nonneg _) (abs_nonneg _) (not_le.1 h) with h | h <;> linarith
    · intro h
      constructor
      · have := rne_mono (show |n.z| - |n.x| ≤ |n.y| by linarith)
        rwa [isF64_abs hy] at this
      · have := rne_mono (show |n.z| - |n.y| ≤ |n.x| by linarith)
        rwa [isF64_abs hx] at this
  rw [h1]
  constructor
  · intro h
    rcases eq_or_ne (|n.x| + |n.y|) 0 with h0 | h0
    · have a := abs_nonneg n.x
      have b := abs_nonneg n.y
      have hz : n.z = 0 := abs_eq_zero.1 (le_antisymm (by linarith) (abs_nonneg _))
      have hx : n.x = 0 := abs_eq_zero.1 (le_antisymm (by linarith) a)
      have hy : n.y = 0 := abs_eq_zero.1 (le_antisymm (by linarith) b)
      exact ⟨0, 0, by simp, by simp, by rw [hx, hy, hz]; simp⟩
    · have hp : 0 < |n.x| + |n.y| := lt_of_le_of_ne (add_nonneg (abs_nonneg _) (abs_nonneg _)) (Ne.symm h0)
      have sg : ∀ x : K, ∃ s : K, |s| = 1 ∧ x * s = |x| := fun x => by
        rcases le_total 0 x with h | h
        · exact ⟨1, by simp, by rw [abs_of_nonneg h, mul_one]⟩
        · exact ⟨-1, by simp, by rw [abs_of_nonpos h]; ring⟩
      obtain ⟨s, s1, s2⟩ := sg n.x
      obtain ⟨t, t1, t2⟩ := sg n.y
      have hr : |-(n.z / (|n.x| + |n.y|))| ≤ 1 := by
        rw [abs_neg, abs_div, abs_of_pos hp, div_le_one hp]; exact h
      refine ⟨-(n.z / (|n.x| + |n.y|)) * s, -(n.z / (|n.x| + |n.y|)) * t, by rw [abs_mul, s1, mul_one]; exact hr, by rw [abs_mul, t1, mul_one]; exact hr, ?_⟩
      rw [show n.x * (-(n.z / (|n.x| + |n.y|)) * s) + n.y * (-(n.z / (|n.x| + |n.y|)) * t) + n.z = -(n.z / (|n.x| + |n.y|)) * (n.x * s + n.y * t) + n.z by ring, s2, t2]
      field_simp
      ring
  · rintro ⟨u, v, hu, hv, h⟩
    have e : n.z = -(n.x * u + n.y * v) := by linarith
    rw [e, abs_neg]
    have a := abs_nonneg n.x
    have b := abs_nonneg n.y
    calc |n.x * u + n.y * v| ≤ |n.x * u| + |n.y * v| := abs_add_le _ _
      _ ≤ |n.x| + |n.y| := by rw [abs_mul, abs_mul]; nlinarith

/-- `intersects_opposite_edges` computes `||x| - |y|| ≥ |z|` without error. -/
theorem opposite_exact {n : Vec K} (hx : IsF64 n.x) (hy : IsF64 n.y) (hz : IsF64 n.z) :
    intersectsOppositeEdges rne n = true ↔ |n.z| ≤ |(|n.x| - |n.y|)| := by
  have hu := isF64_abs hx
  have hv := isF64_abs hy
  have hw := isF64_abs hz
  have u0 := abs_nonneg n.x
  have v0 := abs_nonneg n.y
  have w0 := abs_nonneg n.z
  unfold intersectsOppositeEdges
  simp only
  generalize |n.x| = u at *
  generalize |n.y| = v at *
  generalize |n.z| = w at *
  have key : ∀ u v : K, IsF64 u → IsF64 v → 0 ≤ v → v ≤ u → (0 ≤ rne (u - v) ∧ (w < rne (u - v) → w ≤ u - v) ∧ (rne (u - v) < w → u - v < w) ∧
      (rne (u - v) = w → (rne (u - w) ≥ v ↔ w ≤ u - v))) := by
    intro u v hu hv v0 h
    refine ⟨rne_nonneg (by linarith), fun h1 => ?_, fun h1 => ?_, fun h1 => ⟨fun h2 => ?_, fun h2 => ?_⟩⟩
    · by_contra h2
      have := rne_mono (not_le.1 h2).le
      rw [hw] at this
      linarith
    · by_contra h2
      have := rne_mono (not_lt.1 h2)
      rw [hw] at this
      linarith
    · by_contra h3
      rcases lt_sum_cases hv hw hu v0 w0 (by linarith) with h4 | h4 <;> linarith
    · have := rne_mono (show v ≤ u - w by linarith)
      rwa [hv] at this
  rcases le_total v u with h | h
  · obtain ⟨k0, k1, k2, k3⟩ := key u v hu hv v0 h
    rw [abs_of_nonneg k0, abs_of_nonneg (show 0 ≤ u - v by linarith), if_pos (show u ≥ v from h)]
    split_ifs with h1
    · rw [decide_eq_true_eq]
      rcases lt_or_gt_of_ne h1 with h2 | h2
      · have := k2 h2
        exact ⟨fun h => absurd h2 (not_lt.2 h), fun h => by linarith⟩
      · exact ⟨fun _ => k1 h2, fun _ => h2.le⟩
    · rw [decide_eq_true_eq]
      exact k3 (not_not.1 h1)
  · obtain ⟨k0, k1, k2, k3⟩ := key v u hv hu u0 h
    have e : rne (u - v) = -rne (v - u) := by rw [← rne_odd, neg_sub]
    rw [e, abs_neg, abs_of_nonneg k0, abs_of_nonpos (show u - v ≤ 0 by linarith), neg_sub]
    split_ifs with h1 h2
    · rw [decide_eq_true_eq]
      rcases lt_or_gt_of_ne h1 with h2 | h2
      · have := k2 h2
        exact ⟨fun h => absurd h2 (not_lt.2 h), fun h => by linarith⟩
      · exact ⟨fun _ => k1 h2, fun _ => h2.le⟩
    · have huv : u = v := le_antisymm h h2
      rw [decide_eq_true_eq]
      have := k3 (not_not.1 h1)
      rw [huv] at this ⊢
      exact this
    · rw [decide_eq_true_eq]
      exact k3 (not_not.1 h1)

/-- **C78.** `intersects_opposite_edges` is exact: true if and only if the plane meets two opposite edges of the square. -/
theorem c78_oppositeEdges {n : Vec K} (hx : IsF64 n.x) (hy : IsF64 n.y) (hz : IsF64 n.z) :
    intersectsOppositeEdges rne n = true ↔
      (∃ v w : K, |v| ≤ 1 ∧ |w| ≤ 1 ∧ -n.x + n.y * v + n.z = 0 ∧ n.x + n.y * w + n.z = 0) ∨
      (∃ u w : K, |u| ≤ 1 ∧ |w| ≤ 1 ∧ n.x * u - n.y + n.z = 0 ∧ n.x * w + n.y + n.z = 0) := by
  rw [opposite_exact hx hy hz]
  have one : ∀ a b c : K, |a| + |c| ≤ |b| ↔ ∃ v w : K, |v| ≤ 1 ∧ |w| ≤ 1 ∧ -a + b * v + c = 0 ∧ a + b * w + c = 0 := by
    intro a b c
    constructor
    · intro h
      rcases eq_or_ne b 0 with hb | hb
      · rw [hb, abs_zero] at h
        have ha : a = 0 := abs_eq_zero.1 (le_antisymm (by linarith [abs_nonneg c]) (abs_nonneg _))
        have hc : c = 0 := abs_eq_zero.1 (le_antisymm (by linarith [abs_nonneg a]) (abs_nonneg _))
        exact ⟨0, 0, by simp, by simp, by rw [ha, hc]; simp, by rw [ha, hc]; simp⟩
      · have hp := abs_pos.2 hb
        refine ⟨(a - c) / b, -(a + c) / b, ?_, ?_, by field_simp; ring, by field_simp; ring⟩
        · rw [abs_div, div_le_one hp]
          exact (abs_sub a c).trans h
        · rw [abs_div, div_le_one hp, abs_neg]
          exact (abs_add_le a c).trans h
    · rintro ⟨v, w, hv, hw, h1, h2⟩
      have b0 := abs_nonneg b
      have e1 : a - c = b * v := by linarith
      have e2 : -(a + c) = b * w := by linarith
      have g1 : |a - c| ≤ |b| := by rw [e1, abs_mul]; nlinarith
      have g2 : |a + c| ≤ |b| := by rw [← abs_neg, e2, abs_mul]; nlinarith
      rw [abs_le] at g1 g2
      rcases abs_choice a with e | e <;> rcases abs_choice c with e' | e' <;> rw [e, e'] <;> linarith
  have two : |n.z| ≤ |(|n.x| - |n.y|)| ↔ |n.x| + |n.z| ≤ |n.y| ∨ |n.y| + |n.z| ≤ |n.x| := by
    rw [le_abs]
    constructor
    · rintro (h | h)
      · right; linarith
      · left; linarith
    · rintro (h | h)
      · right; linarith
      · left; linarith
  rw [two, one n.x n.y n.z, one n.y n.x n.z]
  refine or_congr Iff.rfl ⟨?_, ?_⟩
  · rintro ⟨v, w, h1, h2, h3, h4⟩
    exact ⟨v, w, h1, h2, by linarith, by linarith⟩
  · rintro ⟨v, w, h1, h2, h3, h4⟩
    exact ⟨v, w, h1, h2, by linarith, by linarith⟩

/-- The sum of two doubles is rounded with a relative error only: it cannot underflow. -/
theorem sum_rel {x y : K} (hx : IsF64 x) (hy : IsF64 y) : |rne (x + y) - (x + y)| ≤ 1 / 2 ^ 53 * |x + y| := by
  have mult : ∀ x : K, IsF64 x → ∃ m : ℤ, x = m * 2 ^ (-1074 : ℤ) := by
    intro x hx
    obtain ⟨n, hn⟩ := isF64_ulp hx
    obtain ⟨k, hk⟩ := Int.eq_ofNat_of_zero_le (sub_nonneg.2 (ulpExp_ge x))
    refine ⟨n * 2 ^ k, ?_⟩
    have e : ulpExp x = (k : ℤ) + -1074 := by omega
    rw [e, two_zpow_add, two_zpow_nat] at hn
    push_cast
    rw [mul_assoc]
    exact hn
  obtain ⟨m, hm⟩ := mult x hx
  obtain ⟨n, hn⟩ := mult y hy
  have hs : x + y = ((m + n : ℤ) : K) * 2 ^ (-1074 : ℤ) := by push_cast; linarith
  by_cases h : |m + n| ≤ 2 ^ 53
  · rw [rne_exact hs h le_rfl, sub_self, abs_zero]
    positivity
  · have hp := two_zpow_pos (K := K) (-1074)
    have h1 : (2 : K) ^ 53 < |((m + n : ℤ) : K)| := by
      have : ((2 ^ 53 : ℤ) : K) < ((|m + n| : ℤ) : K) := by exact_mod_cast not_le.1 h
      push_cast at this ⊢
      linarith
    have habs : |x + y| = |((m + n : ℤ) : K)| * 2 ^ (-1074 : ℤ) := by rw [hs, abs_mul, abs_of_pos hp]
    have hpos : 0 < |x + y| := by rw [habs]; exact mul_pos (lt_trans (by positivity) h1) hp
    have hu : ulpExp |x + y| = ulpExp (x + y) := by unfold ulpExp; rw [abs_abs]
    have h2 : -1074 < ulpExp |x + y| := by
      by_contra hc
      have e : ulpExp |x + y| = -1074 := le_antisymm (not_lt.1 hc) (ulpExp_ge _)
      have h3 := lt_ulp hpos
      rw [e, two_zpow_add, habs, mul_comm ((2 : K) ^ (-1074 : ℤ))] at h3
      have h4 := lt_of_mul_lt_mul_right h3 hp.le
      have e53 : (2 : K) ^ (53 : ℤ) = 2 ^ 53 := two_zpow_nat 53
      rw [e53] at h4
      linarith
    have h3 := ulp_le hpos h2
    rw [two_zpow_add, hu] at h3
    have e52 : (2 : K) ^ (52 : ℤ) = 2 ^ 52 := two_zpow_nat 52
    rw [e52] at h3
    have h4 := rne_near_ulp (x + y)
    generalize (2 : K) ^ ulpExp (x + y) = U at h3 h4
    refine h4.trans ?_
    calc 1 / 2 * U = 1 / 2 ^ 53 * (U * 2 ^ 52) := by norm_num; ring
      _ ≤ 1 / 2 ^ 53 * |x + y| := mul_le_mul_of_nonneg_left h3 (by positivity)

/-- The sign test of the code on a number that is not zero. -/
def SignBit (neg : K → Bool) : Prop := ∀ x, x ≠ 0 → neg x = decide (x < 0)

omit [FloorRing K] in
/-- The numerator of the coordinate that `exit_point` computes is at most the denominator: from the two comparisons. -/
theorem exit_bound (x y z : K) (neg : K → Bool) (hneg : SignBit neg) (hI : |z| ≤ |x| + |y|) (hO : ¬ |z| ≤ |(|x| - |y|)|) :
    (xor (xor (neg x) (neg y)) (neg z) = false → |-(if x < 0 then 1 else -1 : K) * y - z| ≤ |x|) ∧
    (xor (xor (neg x) (neg y)) (neg z) = true → |-(if y > 0 then 1 else -1 : K) * x - z| ≤ |y|) := by
  rw [not_le, abs_lt] at hO
  have hz : z ≠ 0 := by rintro rfl; rw [abs_zero] at hO; linarith
  have hx : x ≠ 0 := by rintro rfl; rw [abs_zero] at hO hI; linarith
  have hy : y ≠ 0 := by rintro rfl; rw [abs_zero] at hO hI; linarith
  rw [hneg x hx, hneg y hy, hneg z hz]
  rcases lt_or_gt_of_ne hx with h1 | h1 <;> rcases lt_or_gt_of_ne hy with h2 | h2 <;> rcases lt_or_gt_of_ne hz with h3 | h3 <;>
    simp only [h1, h2, h3, not_lt.2 h1.le, not_lt.2 h2.le, not_lt.2 h3.le, if_true, if_false, decide_true, decide_false, Bool.xor_false, Bool.xor_true,
      Bool.not_true, Bool.not_false, Bool.false_eq_true, reduceCtorEq, false_implies, true_and, and_true, forall_const] <;>
    (first | rw [abs_of_neg h1] at * | rw [abs_of_pos h1] at *) <;>
    (first | rw [abs_of_neg h2] at * | rw [abs_of_pos h2] at *) <;>
    (first | rw [abs_of_neg h3] at * | rw [abs_of_pos h3] at *) <;>
    rw [abs_le] <;> constructor <;> linarith

/-- What `exit_axis` guarantees. -/
theorem exit_num {n : Vec K} (hx : IsF64 n.x) (hy : IsF64 n.y) (hz : IsF64 n.z) (neg : K → Bool) (hneg : SignBit neg) (hI : intersectsFace rne n = true)
    (h0 : n.x ≠ 0 ∨ n.y ≠ 0) :
    (exitAxis rne neg n = .V → n.x ≠ 0 ∧ |-(if n.x < 0 then 1 else -1 : K) * n.y - n.z| ≤ |n.x|) ∧
    (exitAxis rne neg n = .U → n.y ≠ 0 ∧ |-(if n.y > 0 then 1 else -1 : K) * n.x - n.z| ≤ |n.y|) := by
  obtain ⟨u, v, hu, hv, hl⟩ := (c78_intersectsFace hx hy hz).1 hI
  have hI' : |n.z| ≤ |n.x| + |n.y| := by
    rw [show n.z = -(n.x * u + n.y * v) by linarith, abs_neg]
    have a := abs_nonneg n.x
    have b := abs_nonneg n.y
    calc |n.x * u + n.y * v| ≤ |n.x * u| + |n.y * v| := abs_add_le _ _
      _ ≤ |n.x| + |n.y| := by rw [abs_mul, abs_mul]; nlinarith
  have tri : ∀ s a b : K, (s = 1 ∨ s = -1) → |-s * a - b| ≤ |a| + |b| := by
    rintro s a b (rfl | rfl)
    · calc |-1 * a - b| = |-(a + b)| := by congr 1; ring
        _ ≤ |a| + |b| := by rw [abs_neg]; exact abs_add_le _ _
    · calc |-(-1) * a - b| = |a - b| := by congr 1; ring
        _ ≤ |a| + |b| := abs_sub a b
  have px : (if n.x < 0 then 1 else -1 : K) = 1 ∨ (if n.x < 0 then 1 else -1 : K) = -1 := by split_ifs <;> simp
  have py : (if n.y > 0 then 1 else -1 : K) = 1 ∨ (if n.y > 0 then 1 else -1 : K) = -1 := by split_ifs <;> simp
  have hop := opposite_exact hx hy hz
  unfold exitAxis
  by_cases ho : intersectsOppositeEdges rne n = true
  · rw [if_pos ho]
    have ho' := hop.1 ho
    by_cases hc : |n.x| ≥ |n.y|
    · rw [if_pos hc]
      rw [abs_of_nonneg (show 0 ≤ |n.x| - |n.y| by linarith)] at ho'
      refine ⟨fun _ => ⟨?_, (tri _ n.y n.z px).trans (by linarith)⟩, fun h => by cases h⟩
      intro hx0
      rw [hx0, abs_zero] at hc
      rcases h0 with h | h
      · exact h hx0
      · exact h (abs_eq_zero.1 (le_antisymm hc (abs_nonneg _)))
    · rw [if_neg hc]
      rw [abs_of_neg (show |n.x| - |n.y| < 0 by linarith)] at ho'
      refine ⟨fun h => (by cases h), fun _ => ⟨?_, (tri _ n.x n.z py).trans (by linarith)⟩⟩
      intro hy0
      rw [hy0, abs_zero] at hc
      exact hc (abs_nonneg _)
  · rw [if_neg ho]
    have hO : ¬ |n.z| ≤ |(|n.x| - |n.y|)| := fun h => ho (hop.2 h)
    have hb := exit_bound n.x n.y n.z neg hneg hI' hO
    rw [not_le, abs_lt] at hO
    have hx : n.x ≠ 0 := by intro h; rw [h, abs_zero] at hO hI'; linarith
    have hy : n.y ≠ 0 := by intro h; rw [h, abs_zero] at hO hI'; linarith
    by_cases hc : xor (xor (neg n.x) (neg n.y)) (neg n.z) = false
    · rw [if_pos hc]
      exact ⟨fun _ => ⟨hx, hb.1 hc⟩, fun h => by cases h⟩
    · rw [if_neg hc]
      exact ⟨fun h => (by cases h), fun _ => ⟨hy, hb.2 (by simpa using hc)⟩⟩

namespace Spec

/-- `p` is the last point of the face that the directed line with this normal visits: the point is on the line and in the face, and every
other such point is behind it. The line moves counterclockwise around the normal, which on the face is in the direction `(n.y, -n.x)`. -/
def IsExit (n : Vec K) (p : R2.Point K) : Prop :=
  |p.x| ≤ 1 ∧ |p.y| ≤ 1 ∧ n.x * p.x + n.y * p.y + n.z = 0 ∧
    ∀ u v : K, |u| ≤ 1 → |v| ≤ 1 → n.x * u + n.y * v + n.z = 0 → (u - p.x) * n.y + (v - p.y) * (-n.x) ≤ 0

end Spec

/-- **C78.** The axis is chosen correctly for all doubles: on the chosen axis, the point that `exit_point` would return without rounding is the
last point of the line on the face. -/
theorem c78_exitAxis {n : Vec K} (hx : IsF64 n.x) (hy : IsF64 n.y) (hz : IsF64 n.z) (neg : K → Bool) (hneg : SignBit neg) (hI : intersectsFace rne n = true)
    (h0 : n.x ≠ 0 ∨ n.y ≠ 0) : IsExit n (exitPoint _root_.id n (exitAxis rne neg n)) := by
  obtain ⟨hV, hU⟩ := exit_num hx hy hz neg hneg hI h0
  cases hax : exitAxis rne neg n with
  | V =>
    obtain ⟨hn, hb⟩ := hV hax
    unfold exitPoint
    simp only [id]
    set v : K := if n.x < 0 then 1 else -1 with hv
    have hv1 : |v| = 1 := by rw [hv]; split_ifs <;> simp
    refine ⟨?_, hv1.le, by field_simp; ring, ?_⟩
    · rw [abs_div, div_le_one (abs_pos.2 hn)]; exact hb
    · intro a b ha hb hl
      have e : (a - (-v * n.y - n.z) / n.x) * n.y + (b - v) * (-n.x) = -((n.x ^ 2 + n.y ^ 2) * ((b - v) / n.x)) := by
        field_simp
        linear_combination n.y * hl
      rw [e]
      rw [abs_le] at hb
      have : 0 ≤ (b - v) / n.x := by
        rw [hv]
        split_ifs with h
        · exact div_nonneg_of_nonpos (by linarith) h.le
        · exact div_nonneg (by linarith) (not_lt.1 h)
      have := mul_nonneg (show 0 ≤ n.x ^ 2 + n.y ^ 2 by positivity) this
      linarith
  | U =>
    obtain ⟨hn, hb⟩ := hU hax
    unfold exitPoint
    simp only [id]
    set u : K := if n.y > 0 then 1 else -1 with hu
    have hu1 : |u| = 1 := by rw [hu]; split_ifs <;> simp
    refine ⟨hu1.le, ?_, by field_simp; ring, ?_⟩
    · rw [abs_div, div_le_one (abs_pos.2 hn)]; exact hb
    · intro a b ha hb hl
      have e : (a - u) * n.y + (b - (-u * n.x - n.z) / n.y) * (-n.x) = -((n.x ^ 2 + n.y ^ 2) * ((u - a) / n.y)) := by
        field_simp
        linear_combination -n.x * hl
      rw [e]
      rw [abs_le] at ha
      have : 0 ≤ (u - a) / n.y := by
        rw [hu]
        split_ifs with h
        · exact div_nonneg (by linarith) h.le
        · exact div_nonneg_of_nonpos (by linarith) (not_lt.1 h)
      have := mul_nonneg (show 0 ≤ n.x ^ 2 + n.y ^ 2 by positivity) this
      linarith

/-- Rounding of a quotient of the kind that `exit_point` computes. -/
theorem exit_round {s a b c : K} (hs : s = 1 ∨ s = -1) (ha : IsF64 a) (hb : IsF64 b) (hc : IsF64 c) (hn : c ≠ 0) (h : |-s * a - b| ≤ |c|) :
    |rne (rne (rne (-s * a) - b) / c)| ≤ 1 ∧ |rne (rne (rne (-s * a) - b) / c) - (-s * a - b) / c| ≤ 1 / 2 ^ 52 := by
  have e1 : IsF64 (-s * a) := by
    rcases hs with rfl | rfl
    · rw [neg_one_mul]; exact isF64_neg ha
    · rw [neg_neg, one_mul]; exact ha
  rw [show rne (-s * a) = -s * a from e1]
  generalize hw : -s * a = w at *
  have cp := abs_pos.2 hn
  have hrel : |rne (w - b) - (w - b)| ≤ 1 / 2 ^ 53 * |w - b| := by
    have := sum_rel e1 (isF64_neg hb)
    rwa [← sub_eq_add_neg] at this
  have hle : |rne (w - b)| ≤ |c| := by
    rw [abs_le] at h ⊢
    have h1 := rne_mono h.1
    have h2 := rne_mono h.2
    rw [show rne (-|c|) = -|c| from isF64_neg (isF64_abs hc)] at h1
    rw [show rne |c| = |c| from isF64_abs hc] at h2
    exact ⟨h1, h2⟩
  have hq : |rne (w - b) / c| ≤ 1 := by rw [abs_div, div_le_one cp]; exact hle
  constructor
  · rw [abs_le] at hq ⊢
    have h1 := rne_mono hq.1
    have h2 := rne_mono hq.2
    rw [rne_odd, rne_one] at h1
    rw [rne_one] at h2
    exact ⟨h1, h2⟩
  · have h1 : |rne (rne (w - b) / c) - rne (w - b) / c| ≤ 1 / 2 ^ 53 := by
      have h := rne_near_ulp (rne (w - b) / c)
      refine h.trans ?_
      rcases eq_or_ne (rne (w - b) / c) 0 with hz | hz
      · rw [hz]
        have : ulpExp (0 : K) ≤ -52 := by unfold ulpExp; simp
        have h2 := two_zpow_le (K := K) this
        have e52 : (2 : K) ^ (-52 : ℤ) = 1 / 2 ^ 52 := by rw [zpow_neg, one_div]; norm_cast
        rw [e52] at h2
        calc 1 / 2 * 2 ^ ulpExp (0 : K) ≤ 1 / 2 * (1 / 2 ^ 52) := mul_le_mul_of_nonneg_left h2 (by norm_num)
          _ = _ := by norm_num
      · have h3 := ulpExp_mono (abs_pos.2 hz) hq
        have : ulpExp (1 : K) ≤ -52 := by unfold ulpExp; simp
        have hu : ulpExp |rne (w - b) / c| = ulpExp (rne (w - b) / c) := by unfold ulpExp; rw [abs_abs]
        rw [hu] at h3
        have h2 := two_zpow_le (K := K) (h3.trans this)
        have e52 : (2 : K) ^ (-52 : ℤ) = 1 / 2 ^ 52 := by rw [zpow_neg, one_div]; norm_cast
        rw [e52] at h2
        calc 1 / 2 * 2 ^ ulpExp (rne (w - b) / c) ≤ 1 / 2 * (1 / 2 ^ 52) := mul_le_mul_of_nonneg_left h2 (by norm_num)
          _ = _ := by norm_num
    have h2 : |rne (w - b) / c - (w - b) / c| ≤ 1 / 2 ^ 53 := by
      rw [← sub_div, abs_div, div_le_iff₀ cp]
      refine hrel.trans (mul_le_mul_of_nonneg_left h (by positivity))
    calc |rne (rne (w - b) / c) - (w - b) / c| ≤ |rne (rne (w - b) / c) - rne (w - b) / c| + |rne (w - b) / c - (w - b) / c| := abs_sub_le _ _ _
      _ ≤ 1 / 2 ^ 53 + 1 / 2 ^ 53 := add_le_add h1 h2
      _ = 1 / 2 ^ 52 := by norm_num

/-- **C78.** The computed exit point is on the boundary of the face, exactly, and at most `2^-52` from the true one. -/
theorem c78_exitPoint {n : Vec K} (hx : IsF64 n.x) (hy : IsF64 n.y) (hz : IsF64 n.z) (neg : K → Bool) (hneg : SignBit neg) (hI : intersectsFace rne n = true)
    (h0 : n.x ≠ 0 ∨ n.y ≠ 0) :
    let p := exitPoint rne n (exitAxis rne neg n)
    (|p.x| = 1 ∧ |p.y| ≤ 1 ∨ |p.x| ≤ 1 ∧ |p.y| = 1) ∧ ∃ q, IsExit n q ∧ |p.x - q.x| ≤ 1 / 2 ^ 52 ∧ |p.y - q.y| ≤ 1 / 2 ^ 52 := by
  intro p
  have hE := c78_exitAxis hx hy hz neg hneg hI h0
  obtain ⟨hV, hU⟩ := exit_num hx hy hz neg hneg hI h0
  have px : (if n.x < 0 then 1 else -1 : K) = 1 ∨ (if n.x < 0 then 1 else -1 : K) = -1 := by split_ifs <;> simp
  have py : (if n.y > 0 then 1 else -1 : K) = 1 ∨ (if n.y > 0 then 1 else -1 : K) = -1 := by split_ifs <;> simp
  have hp : p = exitPoint rne n (exitAxis rne neg n) := rfl
  clear_value p
  cases hax : exitAxis rne neg n with
  | V =>
    obtain ⟨hn, hb⟩ := hV hax
    rw [hax] at hp hE
    have hr := exit_round px hy hz hx hn hb
    rw [hp]
    refine ⟨Or.inr ⟨hr.1, ?_⟩, _, hE, hr.2, ?_⟩
    · change |(if n.x < 0 then 1 else -1 : K)| = 1
      split_ifs <;> simp
    · change |(if n.x < 0 then 1 else -1 : K) - (if n.x < 0 then 1 else -1 : K)| ≤ _
      rw [sub_self, abs_zero]; positivity
  | U =>
    obtain ⟨hn, hb⟩ := hU hax
    rw [hax] at hp hE
    have hr := exit_round py hx hz hy hn hb
    rw [hp]
    refine ⟨Or.inl ⟨?_, hr.1⟩, _, hE, ?_, hr.2⟩
    · change |(if n.y > 0 then 1 else -1 : K)| = 1
      split_ifs <;> simp
    · change |(if n.y > 0 then 1 else -1 : K) - (if n.y > 0 then 1 else -1 : K)| ≤ _
      rw [sub_self, abs_zero]; positivity

/-- A line that meets the face and crosses two adjacent edges; it leaves through `v = -1` at `u = 0`. -/
example : intersectsFace rne (⟨1, 2, 2⟩ : Vec ℚ) = true ∧ intersectsOppositeEdges rne (⟨1, 2, 2⟩ : Vec ℚ) = false ∧
    IsExit (⟨1, 2, 2⟩ : Vec ℚ) ⟨0, -1⟩ := by
  have h1 : IsF64 (1 : ℚ) := rne_one
  have h2 : IsF64 (2 : ℚ) := rne_exact (m := 1) (k := 1) (by norm_num) (by norm_num) (by norm_num)
  have hI : intersectsFace rne (⟨1, 2, 2⟩ : Vec ℚ) = true :=
    (c78_intersectsFace (n := ⟨1, 2, 2⟩) h1 h2 h2).2 ⟨0, -1, by norm_num, by norm_num, by norm_num⟩
  have hO : ¬ intersectsOppositeEdges rne (⟨1, 2, 2⟩ : Vec ℚ) = true := by
    rw [opposite_exact (n := ⟨1, 2, 2⟩) h1 h2 h2]
    norm_num [abs_of_pos]
  have hE := c78_exitAxis (n := ⟨1, 2, 2⟩) h1 h2 h2 (fun x => decide (x < 0)) (fun _ _ => rfl) hI (Or.inl one_ne_zero)
  have ha : exitAxis rne (fun x => decide (x < 0)) (⟨1, 2, 2⟩ : Vec ℚ) = .V := by
    unfold exitAxis
    rw [if_neg hO]
    norm_num
  rw [ha] at hE
  refine ⟨hI, by simpa using hO, ?_⟩
  norm_num [exitPoint] at hE
  exact hE

end Verif
