import Verif.Proofs.Float
import Verif.Properties.Stuv

/-! # Error bounds for the cube projection, for every rounding with the IEEE error bound -/

namespace Verif
open Spec

variable {K : Type} [Field K] [LinearOrder K] [IsStrictOrderedRing K]

theorem near_fl {fl : K → K} (h : Rounding fl) {x p d B : K} (hd : |x - p| ≤ d) (hx : |x| ≤ B) (hB : B ≤ 2 ^ 40) :
    |fl x - p| ≤ d + (B + 1) / 2 ^ 53 := by
  have h1 := h x (hx.trans (hB.trans (pow_le_pow_right₀ (by norm_num) (by omega))))
  have h2 : (1 : K) / 2 ^ 1075 ≤ 1 / 2 ^ 53 :=
    one_div_le_one_div_of_le (by positivity) (pow_le_pow_right₀ (by norm_num) (by omega))
  have h3 : |x| / 2 ^ 53 ≤ B / 2 ^ 53 := div_le_div_of_nonneg_right hx (by positivity)
  have h4 := abs_add_le (fl x - x) (x - p)
  rw [sub_add_sub_cancel] at h4
  rw [add_div]
  generalize (1 : K) / 2 ^ 1075 = e at *
  generalize (1 : K) / 2 ^ 53 = e' at *
  generalize |x| / 2 ^ 53 = e'' at *
  linarith

theorem near_self {fl : K → K} (h : Rounding fl) {x B : K} (hx : |x| ≤ B) (hB : B ≤ 2 ^ 40) : |fl x - x| ≤ (B + 1) / 2 ^ 53 := by
  have := near_fl h (x := x) (p := x) (d := 0) (by simp) hx hB
  rwa [zero_add] at this

theorem near_prod {x p d y q e Y P : K} (h1 : |x - p| ≤ d) (h2 : |y - q| ≤ e) (hY : |y| ≤ Y) (hP : |p| ≤ P) :
    |x * y - p * q| ≤ d * Y + P * e := by
  have e1 : x * y - p * q = (x - p) * y + p * (y - q) := by ring
  rw [e1]
  refine (abs_add_le _ _).trans ?_
  rw [abs_mul, abs_mul]
  exact add_le_add (mul_le_mul h1 hY (abs_nonneg _) ((abs_nonneg _).trans h1))
    (mul_le_mul hP h2 (abs_nonneg _) ((abs_nonneg _).trans hP))

theorem abs_of_near {x p d P : K} (h1 : |x - p| ≤ d) (hP : |p| ≤ P) : |x| ≤ P + d := by
  have := abs_add_le (x - p) p
  rw [sub_add_cancel] at this
  linarith

/-- The common core of the two branches of `st_to_uv`. -/
theorem core_near {fl : K → K} (h : Rounding fl) {s r d : K} (h0 : |s| ≤ 3 / 2) (hr : |r - s| ≤ d) (hd : d ≤ 4 / 2 ^ 53) :
    |fl (fl (4 * r) * r) - 4 * s * s| ≤ 50 * d + 32 / 2 ^ 53 ∧ |fl (fl (4 * r) * r)| ≤ 10 := by
  have hr2 : |r| ≤ 7 / 4 := (abs_of_near hr h0).trans (by linarith [show (4 : K) / 2 ^ 53 ≤ 1 / 4 by norm_num])
  have hd0 : 0 ≤ d := (abs_nonneg _).trans hr
  have a1 : |4 * r - 4 * s| ≤ 4 * d := by
    rw [← mul_sub, abs_mul, abs_of_pos (by norm_num : (0 : K) < 4)]; linarith
  have a2 : |4 * r| ≤ 7 := by rw [abs_mul, abs_of_pos (by norm_num : (0 : K) < 4)]; linarith
  have a3 := near_fl h a1 a2 (by norm_num)
  have a4 : |4 * s| ≤ 6 := by rw [abs_mul, abs_of_pos (by norm_num : (0 : K) < 4)]; linarith
  have b1 := near_prod a3 hr hr2 a4
  have b2 : |4 * s * s| ≤ 9 := by rw [abs_mul]; nlinarith [abs_nonneg (4 * s), abs_nonneg s]
  have b3 : |fl (4 * r) * r| ≤ 10 := (abs_of_near b1 b2).trans (by norm_num at *; linarith)
  have b4 := near_fl h b1 b3 (by norm_num)
  have b5 : |fl (fl (4 * r) * r) - 4 * s * s| ≤ 50 * d + 32 / 2 ^ 53 := b4.trans (by norm_num at *; linarith)
  exact ⟨b5, (abs_of_near b5 b2).trans (by norm_num at *; linarith)⟩

theorem third_near {fl : K → K} (h : Rounding fl) {y q e : K} (hq : |q| ≤ 9) (hy : |y - q| ≤ e) (he : e ≤ 1) :
    |fl (fl (1 / 3) * y) - q / 3| ≤ e / 2 + 21 / 2 ^ 53 := by
  have he0 : 0 ≤ e := (abs_nonneg _).trans hy
  have t1 : |fl (1 / 3 : K) - 1 / 3| ≤ (4 / 3) / 2 ^ 53 := by
    have := near_self h (x := (1 / 3 : K)) (B := 1 / 3) (by rw [abs_of_pos] <;> norm_num) (by norm_num)
    refine this.trans (le_of_eq ?_)
    norm_num
  have y1 : |y| ≤ 10 := (abs_of_near hy hq).trans (by linarith)
  have b1 := near_prod t1 hy y1 (le_refl |(1 / 3 : K)|)
  rw [abs_of_pos (by norm_num : (0 : K) < 1 / 3)] at b1
  have e1 : 1 / 3 * q = q / 3 := by ring
  rw [e1] at b1
  have q3 : |q / 3| ≤ 3 := by rw [abs_div, abs_of_pos (by norm_num : (0 : K) < 3)]; linarith
  have b3 : |fl (1 / 3) * y| ≤ 5 := (abs_of_near b1 q3).trans (by norm_num at *; linarith)
  exact (near_fl h b1 b3 (by norm_num)).trans (by norm_num at *; linarith)

/-- `st_to_uv` is accurate near `[0, 1]`. -/
theorem stToUV_near {fl : K → K} (h : Rounding fl) {s : K} (h0 : -1 / 4 ≤ s) (h1 : s ≤ 5 / 4) :
    |stToUV fl s - stToUV _root_.id s| ≤ 1 / 2 ^ 46 := by
  by_cases hs : 1 / 2 ≤ s
  · rw [stToUV_ge hs]
    unfold stToUV
    rw [if_pos hs]
    have hs2 : |s| ≤ 3 / 2 := by rw [abs_le]; constructor <;> linarith
    obtain ⟨c1, c2⟩ := core_near h (r := s) (d := 0) hs2 (by simp) (by norm_num)
    generalize fl (fl (4 * s) * s) = b at *
    have d1 : |(b - 1) - (4 * s * s - 1)| ≤ 32 / 2 ^ 53 := by
      rw [sub_sub_sub_cancel_right]; exact c1.trans (by norm_num)
    have d2 : |b - 1| ≤ 11 := (abs_sub _ _).trans (by rw [abs_one]; linarith)
    have d3 := near_fl h d1 d2 (by norm_num)
    have d4 : |4 * s * s - 1| ≤ 9 := by rw [abs_le]; constructor <;> nlinarith
    exact (third_near h d4 d3 (by norm_num)).trans (by norm_num)
  · have hs' := not_le.1 hs
    rw [stToUV_lt hs']
    unfold stToUV
    rw [if_neg hs]
    have e1 : |fl (1 - s) - (1 - s)| ≤ 3 / 2 ^ 53 :=
      (near_self h (B := 2) (by rw [abs_le]; constructor <;> linarith) (by norm_num)).trans (by norm_num)
    have hs2 : |1 - s| ≤ 3 / 2 := by rw [abs_le]; constructor <;> linarith
    obtain ⟨c1, c2⟩ := core_near h hs2 e1 (by norm_num)
    generalize fl (fl (4 * fl (1 - s)) * fl (1 - s)) = b at *
    have d1 : |(1 - b) - (1 - 4 * (1 - s) * (1 - s))| ≤ 182 / 2 ^ 53 := by
      rw [sub_sub_sub_cancel_left, abs_sub_comm]; exact c1.trans (by norm_num)
    have d2 : |1 - b| ≤ 11 := (abs_sub _ _).trans (by rw [abs_one]; linarith)
    have d3 := near_fl h d1 d2 (by norm_num)
    have d4 : |1 - 4 * (1 - s) * (1 - s)| ≤ 9 := by rw [abs_le]; constructor <;> nlinarith
    exact (third_near h d4 d3 (by norm_num)).trans (by norm_num)

/-- `st_to_uv` grows at least as fast as its argument and at most four times as fast. -/
theorem stToUV_lip {a b : K} (h0 : -1 / 4 ≤ a) (hab : a ≤ b) (h1 : b ≤ 5 / 4) :
    4 / 3 * (b - a) ≤ stToUV _root_.id b - stToUV _root_.id a ∧ stToUV _root_.id b - stToUV _root_.id a ≤ 4 * (b - a) := by
  rcases le_or_gt (1 / 2) a with ha | ha
  · rw [stToUV_ge ha, stToUV_ge (ha.trans hab)]
    constructor <;> nlinarith
  · rw [stToUV_lt ha]
    rcases le_or_gt (1 / 2) b with hb | hb
    · rw [stToUV_ge hb]
      constructor
      · nlinarith [mul_self_nonneg (b - 1 / 2), mul_self_nonneg (a - 1 / 2)]
      · nlinarith [mul_nonneg (sub_nonneg.2 hb) (sub_nonneg.2 h1), mul_nonneg (sub_nonneg.2 ha.le) (sub_nonneg.2 h0)]
    · rw [stToUV_lt hb]
      constructor <;> nlinarith

theorem stToUV_lip_abs {a b : K} (h0 : -1 / 4 ≤ a) (ha : a ≤ 5 / 4) (hb : -1 / 4 ≤ b) (h1 : b ≤ 5 / 4) :
    4 / 3 * |b - a| ≤ |stToUV _root_.id b - stToUV _root_.id a| ∧ |stToUV _root_.id b - stToUV _root_.id a| ≤ 4 * |b - a| := by
  rcases le_total a b with h | h
  · obtain ⟨l1, l2⟩ := stToUV_lip h0 h h1
    have := sub_nonneg.2 h
    rw [abs_of_nonneg this, abs_of_nonneg (by linarith)]
    exact ⟨l1, l2⟩
  · obtain ⟨l1, l2⟩ := stToUV_lip hb h ha
    have := sub_nonneg.2 h
    rw [abs_sub_comm b a, abs_sub_comm (stToUV _root_.id b), abs_of_nonneg this, abs_of_nonneg (by linarith)]
    exact ⟨l1, l2⟩

theorem sqrt_near {sqrt : K → K} (hs : IsSqrt sqrt) {x p d : K} (hp : 1 ≤ p) (hx : 0 ≤ x) (h : |x - p| ≤ d) : |sqrt x - sqrt p| ≤ d := by
  obtain ⟨a1, a2⟩ := hs x hx
  obtain ⟨b1, b2⟩ := hs p (by linarith)
  have b3 : 1 ≤ sqrt p := by nlinarith
  have e : x - p = (sqrt x - sqrt p) * (sqrt x + sqrt p) := by linear_combination b2 - a2
  rw [e, abs_mul, abs_of_nonneg (by linarith : 0 ≤ sqrt x + sqrt p)] at h
  nlinarith [abs_nonneg (sqrt x - sqrt p)]

theorem half_near {fl sqrt : K → K} (h : Rounding fl) (hs : IsSqrt sqrt) {x p d : K} (hp : 1 ≤ p) (hp2 : p ≤ 6) (hd : |x - p| ≤ d) (hd1 : d ≤ 1 / 4) :
    |fl (1 / 2 * fl (sqrt x)) - 1 / 2 * sqrt p| ≤ d / 2 + 8 / 2 ^ 53 := by
  have hx : 0 ≤ x := by rw [abs_le] at hd; linarith
  have hd0 : 0 ≤ d := (abs_nonneg _).trans hd
  have c1 := sqrt_near hs hp hx hd
  obtain ⟨b1, b2⟩ := hs p (by linarith)
  have hsp : |sqrt p| ≤ 3 := by rw [abs_of_nonneg b1]; nlinarith
  have c2 := near_fl h c1 (B := 4) ((abs_of_near c1 hsp).trans (by linarith)) (by norm_num)
  have c3 : |1 / 2 * fl (sqrt x) - 1 / 2 * sqrt p| ≤ 1 / 2 * (d + (4 + 1) / 2 ^ 53) := by
    rw [← mul_sub, abs_mul, abs_of_pos (by norm_num : (0 : K) < 1 / 2)]
    exact mul_le_mul_of_nonneg_left c2 (by norm_num)
  have c4 : |1 / 2 * sqrt p| ≤ 3 / 2 := by rw [abs_mul, abs_of_pos (by norm_num : (0 : K) < 1 / 2)]; linarith
  have c5 : |1 / 2 * fl (sqrt x)| ≤ 4 := (abs_of_near c3 c4).trans (by norm_num at *; linarith)
  exact (near_fl h c3 c5 (by norm_num)).trans (by norm_num at *; linarith)

/-- `uv_to_st` is accurate near `[-1, 1]`. -/
theorem uvToST_near {fl sqrt : K → K} (h : Rounding fl) (hs : IsSqrt sqrt) {u : K} (h0 : -5 / 4 ≤ u) (h1 : u ≤ 5 / 4) :
    |uvToST fl sqrt u - uvToST _root_.id sqrt u| ≤ 1 / 2 ^ 48 := by
  have m : |fl (3 * u) - 3 * u| ≤ 5 / 2 ^ 53 :=
    (near_self h (B := 4) (by rw [abs_le]; constructor <;> linarith) (by norm_num)).trans (by norm_num)
  have m2 : |fl (3 * u)| ≤ 4 := (abs_of_near m (P := 15 / 4) (by rw [abs_le]; constructor <;> linarith)).trans (by norm_num)
  unfold uvToST
  simp only [_root_.id]
  split_ifs with hu
  · have c1 : |(1 + fl (3 * u)) - (1 + 3 * u)| ≤ 5 / 2 ^ 53 := by rw [add_sub_add_left_eq_sub]; exact m
    have c2 := near_fl h c1 (B := 5) ((abs_add_le _ _).trans (by rw [abs_one]; linarith)) (by norm_num)
    exact (half_near h hs (by linarith) (by linarith) c2 (by norm_num)).trans (by norm_num)
  · have c1 : |(1 - fl (3 * u)) - (1 - 3 * u)| ≤ 5 / 2 ^ 53 := by rw [sub_sub_sub_cancel_left, abs_sub_comm]; exact m
    have c2 := near_fl h c1 (B := 5) ((abs_sub _ _).trans (by rw [abs_one]; linarith)) (by norm_num)
    have c3 := half_near h hs (p := 1 - 3 * u) (by linarith) (by linarith) c2 (by norm_num)
    generalize fl (1 / 2 * fl (sqrt (fl (1 - fl (3 * u))))) = w at *
    have hb : |1 / 2 * sqrt (1 - 3 * u)| ≤ 3 / 2 := by
      obtain ⟨b1, b2⟩ := hs (1 - 3 * u) (by linarith)
      rw [abs_of_nonneg (by linarith)]; nlinarith
    have c4 : |(1 - w) - (1 - 1 / 2 * sqrt (1 - 3 * u))| ≤ 14 / 2 ^ 53 := by
      rw [sub_sub_sub_cancel_left, abs_sub_comm]; exact c3.trans (by norm_num)
    have c5 : |w| ≤ 2 := (abs_of_near c3 hb).trans (by norm_num)
    exact (near_fl h c4 (B := 3) ((abs_sub _ _).trans (by rw [abs_one]; linarith)) (by norm_num)).trans (by norm_num)

theorem uvToST_range_wide {sqrt : K → K} (hs : IsSqrt sqrt) {u : K} (h0 : -5 / 4 ≤ u) (h1 : u ≤ 5 / 4) :
    -1 / 4 ≤ uvToST _root_.id sqrt u ∧ uvToST _root_.id sqrt u ≤ 5 / 4 := by
  have hm := (c59_stToUV_strictMono (K := K))
  constructor
  · rw [← hm.le_iff_le, c59_stToUV_uvToST hs, stToUV_lt (by norm_num)]; norm_num; linarith
  · rw [← hm.le_iff_le, c59_stToUV_uvToST hs, stToUV_ge (by norm_num)]; norm_num; linarith

/-- `uv_to_st` is a contraction. -/
theorem uvToST_lip {sqrt : K → K} (hs : IsSqrt sqrt) {u v : K} (h0 : -5 / 4 ≤ u) (h1 : u ≤ 5 / 4) (h2 : -5 / 4 ≤ v) (h3 : v ≤ 5 / 4) :
    |uvToST _root_.id sqrt u - uvToST _root_.id sqrt v| ≤ |u - v| := by
  obtain ⟨a1, a2⟩ := uvToST_range_wide hs h0 h1
  obtain ⟨b1, b2⟩ := uvToST_range_wide hs h2 h3
  have := (stToUV_lip_abs b1 b2 a1 a2).1
  rw [c59_stToUV_uvToST hs, c59_stToUV_uvToST hs] at this
  linarith [abs_nonneg (uvToST _root_.id sqrt u - uvToST _root_.id sqrt v)]

end Verif
