import Verif.Model.EdgeUtil
import Verif.Properties.Predicates
import Verif.Properties.Vector
import Verif.Proofs.RNE

/-!
# Crossing edges: C81

`simple_crossing` in exact arithmetic, with rounding, and the documented symmetries.
-/

namespace Verif
open Spec EdgeUtil

namespace Spec
variable {K : Type} [Field K] [LinearOrder K]

/-- Two edges cross: some direction is a positive combination of the ends of both (a point between both pairs of ends), and the third
point is not on the great circle of the first two (the edges are not on one great circle). -/
def Cross (a b c d : Vec K) : Prop :=
  (∃ s t u v : K, 0 < s ∧ 0 < t ∧ 0 < u ∧ 0 < v ∧ s * a.x + t * b.x = u * c.x + v * d.x ∧ s * a.y + t * b.y = u * c.y + v * d.y ∧
    s * a.z + t * b.z = u * c.z + v * d.z) ∧ det a b c ≠ 0

end Spec

variable {K : Type} [Field K] [LinearOrder K] [IsStrictOrderedRing K]

omit [IsStrictOrderedRing K] in
theorem simpleCrossing_iff (fl : K → K) (a b c d : Vec K) :
    simpleCrossing fl a b c d = true ↔
      0 < fl (-Vec.dot fl (Vec.cross fl a b) c * Vec.dot fl (Vec.cross fl a b) d) ∧
      0 < fl (-Vec.dot fl (Vec.cross fl a b) c * -Vec.dot fl (Vec.cross fl c d) b) ∧
      0 < fl (-Vec.dot fl (Vec.cross fl a b) c * Vec.dot fl (Vec.cross fl c d) a) := by
  unfold simpleCrossing
  dsimp only
  split_ifs with h
  · exact ⟨fun h' => (by cases h'), fun h' => absurd h'.1 (not_lt.2 h)⟩
  · rw [Bool.and_eq_true, decide_eq_true_eq, decide_eq_true_eq]
    exact ⟨fun h' => ⟨not_le.1 h, h'⟩, fun h' => h'.2⟩

theorem dot_neg_left {fl : K → K} (h : OddFl fl) (p q : Vec K) : Vec.dot fl (smul (-1) p) q = -Vec.dot fl p q := by
  rw [smul_neg_one]
  unfold Vec.dot
  simp only [neg_mul, h.eq, ← neg_add]

/-- **C81.** The first documented symmetry, for every rounding. -/
theorem c81_swap_first {fl : K → K} (h : OddFl fl) (a b c d : Vec K) : simpleCrossing fl b a c d = simpleCrossing fl a b c d := by
  rw [Bool.eq_iff_iff, simpleCrossing_iff, simpleCrossing_iff, cross_swap h a b, dot_neg_left h, dot_neg_left h]
  simp only [neg_neg, mul_neg, neg_mul]
  tauto

/-- **C81.** All the symmetries, when no product underflows to zero: exchanging the ends of either edge, and exchanging the edges. -/
theorem c81_symmetry {fl : K → K} (h : OddFl fl) (hpos : ∀ x, 0 < x → 0 < fl x) (a b c d : Vec K) :
    simpleCrossing fl a b d c = simpleCrossing fl a b c d ∧ simpleCrossing fl c d a b = simpleCrossing fl a b c d := by
  have hp : ∀ x, 0 < fl x ↔ 0 < x := by
    refine fun x => ⟨fun hx => ?_, hpos x⟩
    by_contra hc
    rcases (not_lt.1 hc).lt_or_eq with h1 | h1
    · have := hpos (-x) (by linarith)
      rw [h.eq] at this
      linarith
    · rw [h1, h.zero] at hx
      exact lt_irrefl _ hx
  rw [@Bool.eq_iff_iff (simpleCrossing fl a b d c), @Bool.eq_iff_iff (simpleCrossing fl c d a b), simpleCrossing_iff, simpleCrossing_iff, simpleCrossing_iff,
    cross_swap h c d]
  simp only [hp, dot_neg_left h]
  generalize Vec.dot fl (Vec.cross fl a b) c = p
  generalize Vec.dot fl (Vec.cross fl a b) d = q
  generalize Vec.dot fl (Vec.cross fl c d) a = r
  generalize Vec.dot fl (Vec.cross fl c d) b = s
  simp only [mul_pos_iff, neg_pos, Left.neg_neg_iff, neg_neg]
  constructor <;> constructor <;> (rintro ⟨h1, h2, h3⟩; grind)

/-- **C81.** In exact arithmetic `simple_crossing` holds exactly for crossing edges. -/
theorem c81_exact (a b c d : Vec K) : simpleCrossing _root_.id a b c d = true ↔ Cross a b c d := by
  rw [simpleCrossing_iff]
  have e1 : Vec.dot _root_.id (Vec.cross _root_.id a b) c = det a b c := rfl
  have e2 : Vec.dot _root_.id (Vec.cross _root_.id a b) d = det a b d := rfl
  have e3 : Vec.dot _root_.id (Vec.cross _root_.id c d) a = det c d a := rfl
  have e4 : Vec.dot _root_.id (Vec.cross _root_.id c d) b = det c d b := rfl
  rw [e1, e2, e3, e4]
  simp only [_root_.id]
  constructor
  · rintro ⟨h1, h2, h3⟩
    have key : -det c d b * a.x + det c d a * b.x = det a b d * c.x + -det a b c * d.x ∧
        -det c d b * a.y + det c d a * b.y = det a b d * c.y + -det a b c * d.y ∧
        -det c d b * a.z + det c d a * b.z = det a b d * c.z + -det a b c * d.z := by
      unfold det dot cross
      refine ⟨?_, ?_, ?_⟩ <;> ring
    obtain ⟨k1, k2, k3⟩ := key
    refine ⟨?_, fun h0 => by rw [h0] at h1; simp at h1⟩
    rcases lt_trichotomy (det a b c) 0 with h0 | h0 | h0
    · refine ⟨-det c d b, det c d a, det a b d, -det a b c, ?_, ?_, ?_, by linarith, k1, k2, k3⟩
      · exact pos_of_mul_pos_right h2 (by linarith)
      · exact pos_of_mul_pos_right h3 (by linarith)
      · exact pos_of_mul_pos_right h1 (by linarith)
    · rw [h0] at h1; simp at h1
    · refine ⟨det c d b, -det c d a, -det a b d, det a b c, ?_, ?_, ?_, h0, by linarith, by linarith, by linarith⟩
      · rw [neg_mul_neg] at h2
        exact pos_of_mul_pos_right h2 h0.le
      · rw [neg_mul, ← mul_neg] at h3
        exact pos_of_mul_pos_right h3 h0.le
      · rw [neg_mul, ← mul_neg] at h1
        exact pos_of_mul_pos_right h1 h0.le
  · rintro ⟨⟨s, t, u, v, hs, ht, hu, hv, k1, k2, k3⟩, h0⟩
    have r1 : u * det a b c = -(v * det a b d) := by
      unfold det dot cross
      linear_combination (-(a.y * b.z - a.z * b.y)) * k1 - (a.z * b.x - a.x * b.z) * k2 - (a.x * b.y - a.y * b.x) * k3
    have r2 : t * det a b c = -(v * det c d a) := by
      unfold det dot cross
      linear_combination (a.y * c.z - a.z * c.y) * -k1 + (a.z * c.x - a.x * c.z) * -k2 + (a.x * c.y - a.y * c.x) * -k3
    have r3 : s * det a b c = v * det c d b := by
      unfold det dot cross
      linear_combination (b.y * c.z - b.z * c.y) * k1 + (b.z * c.x - b.x * c.z) * k2 + (b.x * c.y - b.y * c.x) * k3
    generalize det a b c = p at *
    have pp : 0 < p * p := mul_self_pos.2 h0
    refine ⟨?_, ?_, ?_⟩
    · refine pos_of_mul_pos_right (a := v) ?_ hv.le
      have : v * (-p * det a b d) = u * (p * p) := by linear_combination (-p) * r1
      rw [this]; positivity
    · refine pos_of_mul_pos_right (a := v) ?_ hv.le
      have : v * (-p * -det c d b) = s * (p * p) := by linear_combination (-p) * r3
      rw [this]; positivity
    · refine pos_of_mul_pos_right (a := v) ?_ hv.le
      have : v * (-p * det c d a) = t * (p * p) := by linear_combination (-p) * r2
      rw [this]; positivity

/-- The edge from `(1, 0, 0)` to `(0, 1, 0)` crosses the edge from `(3, 4, -5)` to `(3, 4, 5)` (not normalized). -/
example : Cross (⟨1, 0, 0⟩ : Vec ℚ) ⟨0, 1, 0⟩ ⟨3, 4, -5⟩ ⟨3, 4, 5⟩ :=
  ⟨⟨6, 8, 1, 1, by norm_num, by norm_num, by norm_num, by norm_num, by norm_num, by norm_num, by norm_num⟩, by norm_num [det, dot, cross]⟩

/-! ## Rounding -/

theorem far_pos {fl : K → K} (h : Rounding fl) {a b c : Vec K} (ha : UnitLe a) (hb : UnitLe b) (hc : UnitLe c) (hd : 1 / 2 ^ 50 ≤ |det a b c|) :
    ∃ e : K, 1 / 2 ^ 52 ≤ e ∧ e ≤ 2 ^ 10 ∧ ((0 < det a b c ∧ Vec.dot fl (Vec.cross fl a b) c = e) ∨ (det a b c < 0 ∧ Vec.dot fl (Vec.cross fl a b) c = -e)) := by
  obtain ⟨M0, h1, h2, h3⟩ := triage_near h ha hb hc
  have h4 := h M0 (h2.trans (le_trans (by norm_num : (128 : K) ≤ 2 ^ 10) (pow_le_pow_right₀ (by norm_num) (by norm_num))))
  have := pow1075 (K := K)
  rw [h1]
  generalize det a b c = D at *
  generalize (1 : K) / 2 ^ 1075 = t at *
  generalize fl M0 = M at *
  rw [abs_le] at h4 h3 h2
  rcases abs_cases D with ⟨e, hD⟩ | ⟨e, hD⟩ <;> rw [e] at hd h3
  · refine ⟨M, ?_, ?_, Or.inl ⟨?_, rfl⟩⟩
    · rcases abs_cases M0 with ⟨e, _⟩ | ⟨e, _⟩ <;> rw [e] at h4 <;> norm_num at * <;> linarith
    · rcases abs_cases M0 with ⟨e, _⟩ | ⟨e, _⟩ <;> rw [e] at h4 <;> norm_num at * <;> linarith
    · exact lt_of_lt_of_le (by positivity) hd
  · refine ⟨-M, ?_, ?_, Or.inr ⟨hD, by ring⟩⟩
    · rcases abs_cases M0 with ⟨e, _⟩ | ⟨e, _⟩ <;> rw [e] at h4 <;> norm_num at * <;> linarith
    · rcases abs_cases M0 with ⟨e, _⟩ | ⟨e, _⟩ <;> rw [e] at h4 <;> norm_num at * <;> linarith

theorem fl_prod_pos {fl : K → K} (h : Rounding fl) {e f : K} (he : 1 / 2 ^ 52 ≤ e) (he' : e ≤ 2 ^ 10) (hf : 1 / 2 ^ 52 ≤ f) (hf' : f ≤ 2 ^ 10) :
    0 < fl (e * f) := by
  have l : (1 : K) / 2 ^ 52 * (1 / 2 ^ 52) ≤ e * f := mul_le_mul he hf (by positivity) (le_trans (by positivity) he)
  have r : e * f ≤ 2 ^ 10 * 2 ^ 10 := mul_le_mul he' hf' (le_trans (by positivity) hf) (by positivity)
  have p0 : 0 < e * f := lt_of_lt_of_le (by positivity) l
  have := fl_rel h (x := e * f) (by
    rw [abs_of_pos p0]
    refine le_trans ?_ l
    rw [div_mul_div_comm, ← pow_add, one_mul]
    exact one_div_le_one_div_of_le (by positivity) (pow_le_pow_right₀ (by norm_num) (by norm_num)))
    (by rw [abs_of_pos p0]; exact r.trans (by norm_num))
  rw [abs_of_pos p0, abs_le] at this
  have h2 : e * f / 2 ^ 52 ≤ e * f / 2 := div_le_div_of_nonneg_left p0.le (by norm_num) (by norm_num)
  linarith

/-- **C81.** With rounding the answer is right when no end is within a volume of `2^-50` of the great circle of the other edge. -/
theorem c81_rounded {fl : K → K} (h : Rounding fl) (hodd : OddFl fl) {a b c d : Vec K} (ha : UnitLe a) (hb : UnitLe b) (hc : UnitLe c) (hd : UnitLe d)
    (h1 : 1 / 2 ^ 50 ≤ |det a b c|) (h2 : 1 / 2 ^ 50 ≤ |det a b d|) (h3 : 1 / 2 ^ 50 ≤ |det c d a|) (h4 : 1 / 2 ^ 50 ≤ |det c d b|) :
    simpleCrossing fl a b c d = true ↔ Cross a b c d := by
  rw [← c81_exact, simpleCrossing_iff, simpleCrossing_iff]
  obtain ⟨p, p1, p2, hp⟩ := far_pos h ha hb hc h1
  obtain ⟨q, q1, q2, hq⟩ := far_pos h ha hb hd h2
  obtain ⟨r, r1, r2, hr⟩ := far_pos h hc hd ha h3
  obtain ⟨s, s1, s2, hs⟩ := far_pos h hc hd hb h4
  have fpq := fl_prod_pos h p1 p2 q1 q2
  have fpr := fl_prod_pos h p1 p2 r1 r2
  have fps := fl_prod_pos h p1 p2 s1 s2
  have e1 : Vec.dot _root_.id (Vec.cross _root_.id a b) c = det a b c := rfl
  have e2 : Vec.dot _root_.id (Vec.cross _root_.id a b) d = det a b d := rfl
  have e3 : Vec.dot _root_.id (Vec.cross _root_.id c d) a = det c d a := rfl
  have e4 : Vec.dot _root_.id (Vec.cross _root_.id c d) b = det c d b := rfl
  rw [e1, e2, e3, e4]
  simp only [_root_.id]
  generalize det a b c = P at *
  generalize det a b d = Q at *
  generalize det c d a = R at *
  generalize det c d b = S at *
  rcases hp with ⟨hp, ep⟩ | ⟨hp, ep⟩ <;> rcases hq with ⟨hq, eq⟩ | ⟨hq, eq⟩ <;> rcases hr with ⟨hr, er⟩ | ⟨hr, er⟩ <;>
    rcases hs with ⟨hs, es⟩ | ⟨hs, es⟩ <;> rw [ep, eq, er, es] <;>
    simp only [mul_neg, neg_mul, neg_neg, hodd.eq, fpq, fpr, fps, mul_pos_iff, mul_neg_iff, hp, hq, hr, hs, neg_pos, Left.neg_neg_iff, true_and, and_true, true_or, or_true,
      hp.not_gt, hq.not_gt, hr.not_gt, hs.not_gt, fpq.not_gt, fpr.not_gt, fps.not_gt, false_and, and_false, or_false, false_or]

/-- Points far from each other's great circles. -/
example : simpleCrossing rne (⟨1, 0, 0⟩ : Vec ℚ) ⟨0, 1, 0⟩ ⟨1 / 2, 1 / 2, -1 / 2⟩ ⟨1 / 2, 1 / 2, 1 / 2⟩ = true := by
  rw [c81_rounded rounding_rne rne_odd]
  · exact ⟨⟨1, 1, 1, 1, by norm_num, by norm_num, by norm_num, by norm_num, by norm_num, by norm_num, by norm_num⟩, by norm_num [det, dot, cross]⟩
  all_goals norm_num [det, dot, cross, UnitLe, abs_le]

theorem rne_tiny {x : K} [FloorRing K] (h0 : 0 < x) (h : x < 2 ^ (-1075 : ℤ)) : rne x = 0 := by
  have e : ulpExp x = -1074 := by
    have h1 : -1074 ≤ ulpExp x := by unfold ulpExp; omega
    rcases h1.lt_or_eq with h2 | h2
    · have h3 := ulp_le h0 h2
      have h4 : (2 : K) ^ (-1075 : ℤ) ≤ 2 ^ (ulpExp x + 52) := two_zpow_le (by omega)
      exact absurd h (not_lt.2 (h4.trans h3))
    · exact h2.symm
  unfold rne
  rw [e]
  have : roundEven (x / 2 ^ (-1074 : ℤ)) = 0 := by
    refine roundEven_eq ?_
    have hp := two_zpow_pos (K := K) (-1074)
    rw [Int.cast_zero, zero_sub, abs_neg, abs_of_pos (by positivity), div_lt_iff₀ hp]
    refine h.trans_eq ?_
    rw [show (-1075 : ℤ) = -1 + -1074 by norm_num, two_zpow_add]
    norm_num
  rw [this, Int.cast_zero, zero_mul]

/-- **C81.** The second documented symmetry fails with IEEE rounding (a product underflows), and a crossing is missed: the edges are
`(1,0,0)`, `(0,1,0)` and `(2^-600, 1, -2^-600)`, `(0,0,1)`. -/
theorem c81_underflow [FloorRing K] :
    let a : Vec K := ⟨1, 0, 0⟩
    let b : Vec K := ⟨0, 1, 0⟩
    let c : Vec K := ⟨1 / 2 ^ 600, 1, -(1 / 2 ^ 600)⟩
    let d : Vec K := ⟨0, 0, 1⟩
    simpleCrossing rne a b c d = false ∧ simpleCrossing rne c d a b = true ∧ Cross a b c d ∧ Vec.norm2 rne c = 1 := by
  have h0 : rne (0 : K) = 0 := rne_zero
  have h1 : rne (1 : K) = 1 := rne_one
  have he0 : (0 : K) < 1 / 2 ^ 600 := by positivity
  have ez : (1 : K) / 2 ^ 600 = 2 ^ (-600 : ℤ) := by rw [zpow_neg, one_div, show (600 : ℤ) = ((600 : ℕ) : ℤ) by norm_num, two_zpow_nat]
  have he : rne ((1 : K) / 2 ^ 600) = 1 / 2 ^ 600 :=
    rne_exact (m := 1) (k := -600) (by rw [ez]; norm_num) (by norm_num) (by norm_num)
  have hee : rne ((1 : K) / 2 ^ 600 * (1 / 2 ^ 600)) = 0 := by
    refine rne_tiny (by positivity) ?_
    rw [ez, ← two_zpow_add]
    exact zpow_lt_zpow_right₀ (by norm_num) (by norm_num)
  generalize (1 : K) / 2 ^ 600 = e at *
  have hn := fun x : K => rne_odd x
  refine ⟨?_, ?_, ⟨⟨e, 1, 1, e, he0, one_pos, one_pos, he0, ?_, ?_, ?_⟩, ?_⟩, ?_⟩
  · rw [Bool.eq_false_iff, ne_eq, simpleCrossing_iff]
    simp only [Vec.dot, Vec.cross, mul_zero, zero_mul, mul_one, one_mul, sub_zero, zero_sub, add_zero, zero_add, h0, h1, he, hn, mul_neg, neg_mul, neg_neg, hee, neg_zero]
    simp
  · rw [simpleCrossing_iff]
    simp only [Vec.dot, Vec.cross, mul_zero, zero_mul, mul_one, one_mul, sub_zero, zero_sub, add_zero, zero_add, h0, h1, he, hn, mul_neg, neg_mul, neg_neg, hee, neg_zero]
    simp [he0]
  · simp
  · simp
  · simp
  · simp only [det, dot, cross]
    norm_num
    exact he0.ne'
  · simp only [Vec.norm2, Vec.dot, mul_one, hee, h1, zero_add, mul_neg, neg_mul, neg_neg, add_zero]

end Verif
