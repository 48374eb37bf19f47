import Verif.Properties.CellAreaBound
import Verif.Properties.PointCell

/-!
# C102: a cell larger than `MAX_AREAMETRIC` says

The `f64` constant is the greatest density rounded to the nearest `f64`, and that is below it.
-/

namespace Verif
open Spec MeasureTheory CellID

theorem cube_add {t w : ℝ} (t0 : 0 ≤ t) (t1 : t ≤ 5 / 4) (w0 : 0 ≤ w) (w1 : w ≤ 1 / 100) : (t + w / 2) ^ 3 ≤ t ^ 3 + 3 * w := by
  have h1 : t ^ 2 ≤ 25 / 16 := by nlinarith
  have h2 : t * (w / 2) ≤ 5 / 4 * (1 / 200) := mul_le_mul t1 (by linarith) (by positivity) (by norm_num)
  have h3 : (w / 2) ^ 2 ≤ 1 := by nlinarith
  have h4 : w / 2 * (3 * t ^ 2 + 3 * (t * (w / 2)) + (w / 2) ^ 2) ≤ w / 2 * 6 := mul_le_mul_of_nonneg_left (by linarith) (by positivity)
  have e : (t + w / 2) ^ 3 = t ^ 3 + w / 2 * (3 * t ^ 2 + 3 * (t * (w / 2)) + (w / 2) ^ 2) := by ring
  rw [e]
  linarith

/-- Near the greatest density. -/
theorem density_peak {u v r : ℝ} (u0 : 30901699338 / 10 ^ 11 ≤ u) (u1 : u ≤ 30901699511 / 10 ^ 11) (v0 : 30901699338 / 10 ^ 11 ≤ v) (v1 : v ≤ 30901699511 / 10 ^ 11)
    (r0 : 0 ≤ r) (r2 : r ^ 2 = 5) : (13 + 5 * r) * (1 + u ^ 2 + v ^ 2) ^ 3 - 11 * ((1 + 3 * u) * (1 + 3 * v)) ≤ 1 / 10 ^ 15 := by
  have ra : 22360679774 / 10 ^ 10 ≤ r := by nlinarith
  have rb : r ≤ 22360679775 / 10 ^ 10 := by nlinarith
  obtain ⟨m, hm⟩ : ∃ m, m = (u + v) / 2 := ⟨_, rfl⟩
  obtain ⟨w, hw⟩ : ∃ w, w = (u - v) ^ 2 := ⟨_, rfl⟩
  have m0 : 30901699338 / 10 ^ 11 ≤ m := by rw [hm]; linarith
  have m1 : m ≤ 30901699511 / 10 ^ 11 := by rw [hm]; linarith
  have w0 : 0 ≤ w := by rw [hw]; positivity
  have w1 : w ≤ 3 / 10 ^ 18 := by
    have : |u - v| ≤ 173 / 10 ^ 11 := abs_le.2 ⟨by linarith, by linarith⟩
    rw [hw, ← sq_abs]
    calc |u - v| ^ 2 ≤ (173 / 10 ^ 11) ^ 2 := pow_le_pow_left₀ (abs_nonneg _) this 2
      _ ≤ 3 / 10 ^ 18 := by norm_num
  have e1 : 11 * ((1 + 3 * u) * (1 + 3 * v)) = 11 * (1 + 3 * m) ^ 2 - 99 / 4 * w := by rw [hm, hw]; ring
  have e2 : 1 + u ^ 2 + v ^ 2 = 1 + 2 * m ^ 2 + w / 2 := by rw [hm, hw]; ring
  have key : (13 + 5 * r) * (1 + 2 * m ^ 2) ^ 3 - 11 * (1 + 3 * m) ^ 2 = (4 * m - (r - 1)) ^ 2 *
      ((31 / 8 + 17 / 8 * r) + (17 / 4 + 15 / 4 * r) * m + (99 / 8 + 33 / 8 * r) * m ^ 2 + (3 + 2 * r) * m ^ 3 + (13 / 2 + 5 / 2 * r) * m ^ 4) := by
    have r3 : r ^ 3 = 5 * r := by rw [pow_succ, r2]
    ring_nf
    rw [r3, r2]
    ring
  have d1 : (4 * m - (r - 1)) ^ 2 ≤ 20 / 10 ^ 18 := by
    have : |4 * m - (r - 1)| ≤ 44 / 10 ^ 10 := abs_le.2 ⟨by linarith, by linarith⟩
    rw [← sq_abs]
    calc |4 * m - (r - 1)| ^ 2 ≤ (44 / 10 ^ 10) ^ 2 := pow_le_pow_left₀ (abs_nonneg _) this 2
      _ ≤ 20 / 10 ^ 18 := by norm_num
  have mm : 0 ≤ m := by linarith
  have m3 : m ≤ 1 / 3 := by linarith
  have rr : r ≤ 9 / 4 := by linarith
  have p2 : m ^ 2 ≤ 1 / 9 := by nlinarith
  have p3 : m ^ 3 ≤ 1 / 27 := by nlinarith
  have p4 : m ^ 4 ≤ 1 / 81 := by nlinarith
  have d2 : (31 / 8 + 17 / 8 * r) + (17 / 4 + 15 / 4 * r) * m + (99 / 8 + 33 / 8 * r) * m ^ 2 + (3 + 2 * r) * m ^ 3 + (13 / 2 + 5 / 2 * r) * m ^ 4 ≤ 17 := by
    have a1 : (17 / 4 + 15 / 4 * r) * m ≤ (17 / 4 + 15 / 4 * (9 / 4)) * (1 / 3) := mul_le_mul (by linarith) m3 mm (by norm_num)
    have a2 : (99 / 8 + 33 / 8 * r) * m ^ 2 ≤ (99 / 8 + 33 / 8 * (9 / 4)) * (1 / 9) := mul_le_mul (by linarith) p2 (by positivity) (by norm_num)
    have a3 : (3 + 2 * r) * m ^ 3 ≤ (3 + 2 * (9 / 4)) * (1 / 27) := mul_le_mul (by linarith) p3 (by positivity) (by norm_num)
    have a4 : (13 / 2 + 5 / 2 * r) * m ^ 4 ≤ (13 / 2 + 5 / 2 * (9 / 4)) * (1 / 81) := mul_le_mul (by linarith) p4 (by positivity) (by norm_num)
    norm_num at a1 a2 a3 a4
    linarith
  have d3 : (4 * m - (r - 1)) ^ 2 *
      ((31 / 8 + 17 / 8 * r) + (17 / 4 + 15 / 4 * r) * m + (99 / 8 + 33 / 8 * r) * m ^ 2 + (3 + 2 * r) * m ^ 3 + (13 / 2 + 5 / 2 * r) * m ^ 4) ≤ 20 / 10 ^ 18 * 17 :=
    mul_le_mul d1 d2 (by positivity) (by norm_num)
  have d4 : (1 + 2 * m ^ 2 + w / 2) ^ 3 ≤ (1 + 2 * m ^ 2) ^ 3 + 3 * w := by
    obtain ⟨t, ht⟩ : ∃ t, t = 1 + 2 * m ^ 2 := ⟨_, rfl⟩
    have t0 : 0 ≤ t := by rw [ht]; positivity
    have t1 : t ≤ 5 / 4 := by rw [ht]; linarith
    rw [← ht]
    exact cube_add t0 t1 w0 (w1.trans (by norm_num))
  have d5 : (13 + 5 * r) * (1 + 2 * m ^ 2 + w / 2) ^ 3 ≤ (13 + 5 * r) * ((1 + 2 * m ^ 2) ^ 3 + 3 * w) := mul_le_mul_of_nonneg_left d4 (by linarith)
  have d6 : (13 + 5 * r) * w ≤ 25 * (3 / 10 ^ 18) := mul_le_mul (by linarith) w1 w0 (by norm_num)
  rw [e1, e2]
  norm_num at d3 d6 w1 ⊢
  linarith

theorem density_peak_le {u v : ℝ} (u0 : 30901699338 / 10 ^ 11 ≤ u) (u1 : u ≤ 30901699511 / 10 ^ 11) (v0 : 30901699338 / 10 ^ 11 ≤ v) (v1 : v ≤ 30901699511 / 10 ^ 11) :
    (2967646137870682 / 2 ^ 50 - 999 / 1000 / 2 ^ 50) / 3 * (stDensity u * stDensity v) ≤ (Real.sqrt (1 + u ^ 2 + v ^ 2))⁻¹ ^ 3 / 3 := by
  have u00 : 0 ≤ u := le_trans (by norm_num) u0
  have v00 : 0 ≤ v := le_trans (by norm_num) v0
  unfold stDensity
  rw [abs_of_nonneg u00, abs_of_nonneg v00]
  have pk := density_peak u0 u1 v0 v1 (Real.sqrt_nonneg 5) (Real.sq_sqrt (show (0 : ℝ) ≤ 5 by norm_num))
  have r5 : 2236067977499789696 / 10 ^ 18 ≤ Real.sqrt 5 := Real.le_sqrt_of_sq_le (by norm_num)
  obtain ⟨T, hT⟩ : ∃ T, T = Real.sqrt (1 + u ^ 2 + v ^ 2) := ⟨_, rfl⟩
  obtain ⟨P, hP⟩ : ∃ T, T = Real.sqrt (1 + 3 * u) := ⟨_, rfl⟩
  obtain ⟨Q, hQ⟩ : ∃ T, T = Real.sqrt (1 + 3 * v) := ⟨_, rfl⟩
  have T0 : 0 < T := by rw [hT]; exact Real.sqrt_pos.2 (by positivity)
  have P0 : 0 < P := by rw [hP]; exact Real.sqrt_pos.2 (by positivity)
  have Q0 : 0 < Q := by rw [hQ]; exact Real.sqrt_pos.2 (by positivity)
  have T2 : T ^ 2 = 1 + u ^ 2 + v ^ 2 := by rw [hT]; exact Real.sq_sqrt (by positivity)
  have P2 : P ^ 2 = 1 + 3 * u := by rw [hP]; exact Real.sq_sqrt (by positivity)
  have Q2 : Q ^ 2 = 1 + 3 * v := by rw [hQ]; exact Real.sq_sqrt (by positivity)
  have T1 : 1 ≤ (T ^ 2) ^ 3 := by rw [T2]; exact one_le_pow₀ (by nlinarith [sq_nonneg u, sq_nonneg v])
  rw [← hT, ← hP, ← hQ]
  rw [← T2, ← P2, ← Q2] at pk
  obtain ⟨M, hM⟩ : ∃ M : ℝ, M = 2967646137870682 / 2 ^ 50 - 999 / 1000 / 2 ^ 50 := ⟨_, rfl⟩
  have M0 : 0 ≤ M := by rw [hM]; norm_num
  have M2 : 11 * M ^ 2 + 256 / 81 / 10 ^ 15 ≤ 256 / 81 * (13 + 5 * Real.sqrt 5) := by
    rw [hM]
    norm_num at r5 ⊢
    linarith
  rw [← hM]
  have h : M * T ^ 3 ≤ 16 / 9 * (P * Q) := by
    refine abs_le_of_sq_le_sq' ?_ (by positivity) |>.2
    have h1 : (11 * M ^ 2 + 256 / 81 / 10 ^ 15) * (T ^ 2) ^ 3 ≤ 256 / 81 * (13 + 5 * Real.sqrt 5) * (T ^ 2) ^ 3 := mul_le_mul_of_nonneg_right M2 (by positivity)
    have e1 : (M * T ^ 3) ^ 2 = M ^ 2 * (T ^ 2) ^ 3 := by ring
    have e2 : (16 / 9 * (P * Q)) ^ 2 = 256 / 81 * (P ^ 2 * Q ^ 2) := by ring
    rw [e1, e2]
    have h2 : 256 / 81 / 10 ^ 15 * 1 ≤ 256 / 81 / 10 ^ 15 * (T ^ 2) ^ 3 := mul_le_mul_of_nonneg_left T1 (by norm_num)
    linarith
  rw [inv_pow, show M / 3 * (3 / (4 * P) * (3 / (4 * Q))) = (M * (9 / 16)) / 3 / (P * Q) by field_simp; ring]
  rw [show (T ^ 3)⁻¹ / 3 = 1 / 3 / T ^ 3 by field_simp, div_le_div_iff₀ (by positivity) (by positivity)]
  linarith

/-- **C102.** The `f64` constant `MAX_AREAMETRIC` (2967646137870681 / 2^50) is not a bound: a leaf cell is larger. -/
theorem c102_max_exceeded : ∃ (c : CellID) (C : Cell ℝ), Valid c ∧ Cell.fromCellID _root_.id c = some C ∧ C.level = 30 ∧
    ∀ {atan2 : ℝ → ℝ → ℝ}, IsAtan2 atan2 → ∃ A, C.exactArea _root_.id Real.sqrt atan2 Real.tan Real.arctan = some A ∧
      (S2.Metric.mk 2 (2967646137870681 / 2 ^ 50) : S2.Metric ℝ).value C.level < A := by
  obtain ⟨l, hv, hl, hat⟩ := valid_leaf_exists (f := 0) (i := 745274868) (j := 745274868) (by norm_num) (by norm_num) (by norm_num)
  obtain ⟨C, hC⟩ : ∃ C, Cell.fromCellID (_root_.id : ℝ → ℝ) l = some C := ⟨_, (c68_from (_root_.id : ℝ → ℝ) hv hv.level hv.square hv.faceIJ).1⟩
  obtain ⟨-, h2, h3, h4⟩ := square_unique hv.square (leaf_square hv hl hat)
  obtain ⟨-, g1, g2⟩ := cell_rect hv hC
  have hlv : lv l = 30 := lv_of_level hl
  rw [← h2, ← h3, ← h4] at g2
  refine ⟨l, C, hv, hC, by rw [g1, hlv], fun {atan2} ha => ⟨_, c101_exactArea hv hC ha, ?_⟩⟩
  obtain ⟨hf, hx, hy⟩ := cell_parts hv hC
  obtain ⟨-, ox, oy⟩ := cell_off hv hC
  have b0 : (uvLine (_root_.id : ℝ → ℝ) (745274868 : Nat)) ≥ 30901699338 / 10 ^ 11 := by
    have e : uvLine (_root_.id : ℝ → ℝ) (745274868 : Nat) = stToUV _root_.id (745274868 / 2 ^ 30) := by
      unfold uvLine; exact congrArg _ (by norm_num)
    rw [e, stToUV_ge (by norm_num)]
    norm_num
  have b1 : (uvLine (_root_.id : ℝ → ℝ) (((745274868 : Nat) : Int) + 1)) ≤ 30901699511 / 10 ^ 11 := by
    have e : uvLine (_root_.id : ℝ → ℝ) (((745274868 : Nat) : Int) + 1) = stToUV _root_.id (745274869 / 2 ^ 30) := by
      unfold uvLine; exact congrArg _ (by norm_num)
    rw [e, stToUV_ge (by norm_num)]
    norm_num
  have xlo : C.uv.x.lo = uvLine (_root_.id : ℝ → ℝ) (745274868 : Nat) := by rw [g2]; rfl
  have xhi : C.uv.x.hi = uvLine (_root_.id : ℝ → ℝ) (((745274868 : Nat) : Int) + 1) := by rw [g2]; rfl
  have ylo : C.uv.y.lo = uvLine (_root_.id : ℝ → ℝ) (745274868 : Nat) := by rw [g2]; rfl
  have yhi : C.uv.y.hi = uvLine (_root_.id : ℝ → ℝ) (((745274868 : Nat) : Int) + 1) := by rw [g2]; rfl
  have s5 := Real.sq_sqrt (show (0 : ℝ) ≤ 5 by norm_num)
  have s50 := Real.sqrt_nonneg 5
  have lo := le_rectVol (k := (2967646137870682 / 2 ^ 50 - 999 / 1000 / 2 ^ 50) / 3) hx.le hy.le (by norm_num) fun u v a1 a2 c1 c2 =>
    density_peak_le (b0.le.trans (xlo ▸ a1)) ((xhi ▸ a2 : u ≤ _).trans b1) (b0.le.trans (ylo ▸ c1)) ((yhi ▸ c2 : v ≤ _).trans b1)
  rw [ox, oy, hlv] at lo
  have h := (ENNReal.ofReal_le_iff_le_toReal (rectVol_ne_top _ _ _ _)).1 lo
  rw [cell_area hf, value_area _ rfl, g1, hlv]
  refine lt_of_lt_of_le ?_ (mul_le_mul_of_nonneg_left h (by norm_num : (0 : ℝ) ≤ 3))
  norm_num

end Verif
