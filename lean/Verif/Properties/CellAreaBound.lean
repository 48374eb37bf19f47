import Verif.Proofs.CellIntegral

/-!
# C102: bounds for the area of the cells of a level
-/

namespace Verif
open Spec MeasureTheory CellID

/-- The inequality behind the least area. -/
theorem density_low {u v : ℝ} (u0 : 0 ≤ u) (u1 : u ≤ 1) (v0 : 0 ≤ v) (v1 : v ≤ 1) : (1 + u ^ 2 + v ^ 2) ^ 3 ≤ 2 * ((1 + 3 * u) * (1 + 3 * v)) := by
  have pw : ∀ {x : ℝ}, 0 ≤ x → x ≤ 1 → ∀ {A : ℝ}, 0 ≤ A → (A + x ^ 2) ^ 3 ≤ A ^ 3 + x * (3 * A ^ 2 + 3 * A + 1) := by
    intro x x0 x1 A A0
    have x2 : x ^ 2 ≤ x := by nlinarith
    have x4 : x ^ 4 ≤ x := by nlinarith [mul_nonneg x0 x0, pow_nonneg x0 3]
    have x6 : x ^ 6 ≤ x := by nlinarith [pow_nonneg x0 3, pow_nonneg x0 2, pow_nonneg x0 4]
    nlinarith [mul_le_mul_of_nonneg_left x2 (mul_nonneg A0 A0), mul_le_mul_of_nonneg_left x4 A0]
  have h1 := pw v0 v1 (A := 1 + u ^ 2) (by positivity)
  have h2 := pw u0 u1 (A := 1) (by norm_num)
  have u2 : u ^ 2 ≤ u := by nlinarith
  have u4 : u ^ 4 ≤ u := by nlinarith [mul_nonneg u0 u0, pow_nonneg u0 3]
  have h3 : 3 * (1 + u ^ 2) ^ 2 + 3 * (1 + u ^ 2) + 1 ≤ 7 + 12 * u := by nlinarith
  have h4 := mul_le_mul_of_nonneg_left h3 v0
  nlinarith [mul_nonneg u0 v0, mul_nonneg (sub_nonneg.2 u1) v0, mul_nonneg u0 (sub_nonneg.2 v1), mul_nonneg (sub_nonneg.2 u1) (sub_nonneg.2 v1)]

/-- The inequality behind the greatest area. -/
theorem density_high {u v r : ℝ} (u0 : 0 ≤ u) (v0 : 0 ≤ v) (r0 : 0 ≤ r) (r2 : r ^ 2 = 5) :
    11 * ((1 + 3 * u) * (1 + 3 * v)) ≤ (13 + 5 * r) * (1 + u ^ 2 + v ^ 2) ^ 3 := by
  obtain ⟨m, hm⟩ : ∃ m, m = (u + v) / 2 := ⟨_, rfl⟩
  have m0 : 0 ≤ m := by rw [hm]; positivity
  have h1 : (1 + 3 * u) * (1 + 3 * v) ≤ (1 + 3 * m) ^ 2 := by rw [hm]; nlinarith [sq_nonneg (u - v)]
  have h2 : 1 + 2 * m ^ 2 ≤ 1 + u ^ 2 + v ^ 2 := by rw [hm]; nlinarith [sq_nonneg (u - v)]
  have h3 : (1 + 2 * m ^ 2) ^ 3 ≤ (1 + u ^ 2 + v ^ 2) ^ 3 := pow_le_pow_left₀ (by positivity) h2 3
  have key : (13 + 5 * r) * (1 + 2 * m ^ 2) ^ 3 - 11 * (1 + 3 * m) ^ 2 = (4 * m - (r - 1)) ^ 2 *
      ((31 / 8 + 17 / 8 * r) + (17 / 4 + 15 / 4 * r) * m + (99 / 8 + 33 / 8 * r) * m ^ 2 + (3 + 2 * r) * m ^ 3 + (13 / 2 + 5 / 2 * r) * m ^ 4) +
      (r ^ 2 - 5) * 0 := by
    have r3 : r ^ 3 = 5 * r := by rw [pow_succ, r2]
    ring_nf
    rw [r3, r2]
    ring
  have h4 : 0 ≤ (4 * m - (r - 1)) ^ 2 *
      ((31 / 8 + 17 / 8 * r) + (17 / 4 + 15 / 4 * r) * m + (99 / 8 + 33 / 8 * r) * m ^ 2 + (3 + 2 * r) * m ^ 3 + (13 / 2 + 5 / 2 * r) * m ^ 4) := by positivity
  have h5 := mul_le_mul_of_nonneg_left h3 (show 0 ≤ 13 + 5 * r by positivity)
  linarith

/-- The two bounds of the integrand. -/
theorem density_bounds {u v : ℝ} (hu : |u| ≤ 1) (hv : |v| ≤ 1) :
    8 * Real.sqrt 2 / 9 / 3 * (stDensity u * stDensity v) ≤ (Real.sqrt (1 + u ^ 2 + v ^ 2))⁻¹ ^ 3 / 3 ∧
    ∀ M : ℝ, 0 ≤ M → (16 / 9) ^ 2 * (13 + 5 * Real.sqrt 5) ≤ 11 * M ^ 2 →
      (Real.sqrt (1 + u ^ 2 + v ^ 2))⁻¹ ^ 3 / 3 ≤ M / 3 * (stDensity u * stDensity v) := by
  obtain ⟨p, hp⟩ : ∃ p, p = |u| := ⟨_, rfl⟩
  obtain ⟨q, hq⟩ : ∃ q, q = |v| := ⟨_, rfl⟩
  have p0 : 0 ≤ p := by rw [hp]; exact abs_nonneg u
  have q0 : 0 ≤ q := by rw [hq]; exact abs_nonneg v
  unfold stDensity
  rw [← sq_abs u, ← sq_abs v, ← hp, ← hq]
  rw [← hp] at hu
  rw [← hq] at hv
  obtain ⟨T, hT⟩ : ∃ T, T = Real.sqrt (1 + p ^ 2 + q ^ 2) := ⟨_, rfl⟩
  obtain ⟨P, hP⟩ : ∃ T, T = Real.sqrt (1 + 3 * p) := ⟨_, rfl⟩
  obtain ⟨Q, hQ⟩ : ∃ T, T = Real.sqrt (1 + 3 * q) := ⟨_, rfl⟩
  have T0 : 0 < T := by rw [hT]; exact Real.sqrt_pos.2 (by positivity)
  have P0 : 0 < P := by rw [hP]; exact Real.sqrt_pos.2 (by positivity)
  have Q0 : 0 < Q := by rw [hQ]; exact Real.sqrt_pos.2 (by positivity)
  have T2 : T ^ 2 = 1 + p ^ 2 + q ^ 2 := by rw [hT]; exact Real.sq_sqrt (by positivity)
  have P2 : P ^ 2 = 1 + 3 * p := by rw [hP]; exact Real.sq_sqrt (by positivity)
  have Q2 : Q ^ 2 = 1 + 3 * q := by rw [hQ]; exact Real.sq_sqrt (by positivity)
  rw [← hT, ← hP, ← hQ]
  have lo := density_low p0 hu q0 hv
  have hi := density_high p0 q0 (Real.sqrt_nonneg 5) (Real.sq_sqrt (by norm_num : (0 : ℝ) ≤ 5))
  rw [← T2, ← P2, ← Q2] at lo hi
  obtain ⟨s, hs⟩ : ∃ s, s = Real.sqrt 2 := ⟨_, rfl⟩
  have s0 : 0 < s := by rw [hs]; exact Real.sqrt_pos.2 (by norm_num)
  have s2 : s ^ 2 = 2 := by rw [hs]; exact Real.sq_sqrt (by norm_num)
  rw [← hs]
  constructor
  · have h : T ^ 3 ≤ s * (P * Q) := by
      refine abs_le_of_sq_le_sq' ?_ (by positivity) |>.2
      calc (T ^ 3) ^ 2 = (T ^ 2) ^ 3 := by ring
        _ ≤ 2 * (P ^ 2 * Q ^ 2) := lo
        _ = (s * (P * Q)) ^ 2 := by rw [mul_pow, s2]; ring
    rw [inv_pow, show 8 * s / 9 / 3 * (3 / (4 * P) * (3 / (4 * Q))) = (s / 2) / 3 / (P * Q) by field_simp; norm_num]
    rw [show (T ^ 3)⁻¹ / 3 = 1 / 3 / T ^ 3 by field_simp, div_le_div_iff₀ (by positivity) (by positivity)]
    have : s / 2 * T ^ 3 ≤ s / 2 * (s * (P * Q)) := mul_le_mul_of_nonneg_left h (by positivity)
    have e : s / 2 * (s * (P * Q)) = P * Q := by rw [show s / 2 * (s * (P * Q)) = s ^ 2 / 2 * (P * Q) by ring, s2]; ring
    linarith
  · intro M M0 hM
    have h : 16 / 9 * (P * Q) ≤ M * T ^ 3 := by
      refine abs_le_of_sq_le_sq' ?_ (by positivity) |>.2
      have h1 : (16 / 9) ^ 2 * (11 * (P ^ 2 * Q ^ 2)) ≤ (16 / 9) ^ 2 * ((13 + 5 * Real.sqrt 5) * (T ^ 2) ^ 3) := mul_le_mul_of_nonneg_left hi (by norm_num)
      have h2 : (16 / 9) ^ 2 * (13 + 5 * Real.sqrt 5) * (T ^ 2) ^ 3 ≤ 11 * M ^ 2 * (T ^ 2) ^ 3 := mul_le_mul_of_nonneg_right hM (by positivity)
      nlinarith
    rw [inv_pow, show M / 3 * (3 / (4 * P) * (3 / (4 * Q))) = (M * (9 / 16)) / 3 / (P * Q) by field_simp; ring]
    rw [show (T ^ 3)⁻¹ / 3 = 1 / 3 / T ^ 3 by field_simp, div_le_div_iff₀ (by positivity) (by positivity)]
    linarith

/-- The area from the integral. -/
theorem cell_area {C : Cell ℝ} (hf : C.face < 6) : sphereArea (InCell C) = 3 * (rectVol C.uv.x.lo C.uv.x.hi C.uv.y.lo C.uv.y.hi).toReal := by
  unfold sphereArea
  rw [cell_rectVol hf]

/-- Between two grid lines at the distance of a cell, the length in `s` is `2^(-k)`. -/
theorem cell_off {c : CellID} {C : Cell ℝ} (hc : Valid c) (hC : Cell.fromCellID _root_.id c = some C) :
    C.level = lv c ∧ stOff C.uv.x.hi - stOff C.uv.x.lo = (2 ^ lv c)⁻¹ ∧ stOff C.uv.y.hi - stOff C.uv.y.lo = (2 ^ lv c)⁻¹ := by
  have r1 := (c68_from (_root_.id : ℝ → ℝ) hc hc.level hc.square hc.faceIJ).1
  rw [hC] at r1
  have r2 := Option.some.inj r1
  have hm := hc.ss_mul
  have hm' : (2 : ℝ) ^ lv c * (ss c : ℝ) = 2 ^ 30 := by exact_mod_cast hm
  have key : ∀ a : Nat, stOff (uvLine (_root_.id : ℝ → ℝ) (((a * ss c : Nat) : Int) + ((ss c : Nat) : Int))) - stOff (uvLine (_root_.id : ℝ → ℝ) ((a * ss c : Nat) : Int)) =
      (2 ^ lv c)⁻¹ := by
    intro a
    unfold uvLine
    rw [stOff_stToUV, stOff_stToUV]
    simp only [_root_.id]
    push_cast
    have : (ss c : ℝ) = 2 ^ 30 / 2 ^ lv c := by rw [eq_div_iff (by positivity), mul_comm]; exact hm'
    rw [this]
    field_simp
    ring
  rw [r2]
  exact ⟨rfl, key _, key _⟩

theorem rectVol_le {xl xh yl yh k : ℝ} (hx : xl ≤ xh) (hy : yl ≤ yh) (hk : 0 ≤ k)
    (h : ∀ u v, xl ≤ u → u ≤ xh → yl ≤ v → v ≤ yh → (Real.sqrt (1 + u ^ 2 + v ^ 2))⁻¹ ^ 3 / 3 ≤ k * (stDensity u * stDensity v)) :
    rectVol xl xh yl yh ≤ ENNReal.ofReal (k * ((stOff xh - stOff xl) * (stOff yh - stOff yl))) := by
  rw [← lintegral_density2 hx hy hk]
  refine setLIntegral_mono' (measurableSet_Icc.prod measurableSet_Icc) fun q hq => ENNReal.ofReal_le_ofReal ?_
  exact h q.1 q.2 hq.1.1 hq.1.2 hq.2.1 hq.2.2

theorem le_rectVol {xl xh yl yh k : ℝ} (hx : xl ≤ xh) (hy : yl ≤ yh) (hk : 0 ≤ k)
    (h : ∀ u v, xl ≤ u → u ≤ xh → yl ≤ v → v ≤ yh → k * (stDensity u * stDensity v) ≤ (Real.sqrt (1 + u ^ 2 + v ^ 2))⁻¹ ^ 3 / 3) :
    ENNReal.ofReal (k * ((stOff xh - stOff xl) * (stOff yh - stOff yl))) ≤ rectVol xl xh yl yh := by
  rw [← lintegral_density2 hx hy hk]
  refine setLIntegral_mono' (measurableSet_Icc.prod measurableSet_Icc) fun q hq => ENNReal.ofReal_le_ofReal ?_
  exact h q.1 q.2 hq.1.1 hq.1.2 hq.2.1 hq.2.2

theorem value_area (m : S2.Metric ℝ) (hd : m.dim = 2) (k : Nat) : m.value k = m.deriv * ((2 ^ k)⁻¹ * (2 ^ k)⁻¹) := by
  unfold S2.Metric.value
  rw [hd]
  congr 1
  rw [show (-((2 : Nat) : Int) * (k : Int)) = -((k : Int) + k) by push_cast; ring, zpow_neg, zpow_add₀ (by norm_num), zpow_natCast, mul_inv]

/-- Bounds by any two constants around the extreme densities. -/
theorem area_between {c : CellID} {C : Cell ℝ} (hc : Valid c) (hC : Cell.fromCellID _root_.id c = some C) :
    8 * Real.sqrt 2 / 9 * ((2 ^ lv c)⁻¹ * (2 ^ lv c)⁻¹) ≤ sphereArea (InCell C) ∧
    ∀ M : ℝ, 0 ≤ M → (16 / 9) ^ 2 * (13 + 5 * Real.sqrt 5) ≤ 11 * M ^ 2 → sphereArea (InCell C) ≤ M * ((2 ^ lv c)⁻¹ * (2 ^ lv c)⁻¹) := by
  obtain ⟨hf, hx, hy⟩ := cell_parts hc hC
  obtain ⟨-, ox, oy⟩ := cell_off hc hC
  obtain ⟨⟨x1, x2⟩, y1, y2⟩ := cell_unit hc hC
  have lo := le_rectVol (k := 8 * Real.sqrt 2 / 9 / 3) hx.le hy.le (by positivity) fun u v a1 a2 b1 b2 =>
    (density_bounds (abs_le.2 ⟨by linarith, by linarith⟩) (abs_le.2 ⟨by linarith, by linarith⟩)).1
  have hi := fun (M : ℝ) (M0 : 0 ≤ M) (hM : (16 / 9) ^ 2 * (13 + 5 * Real.sqrt 5) ≤ 11 * M ^ 2) =>
    rectVol_le (k := M / 3) hx.le hy.le (by positivity) fun u v a1 a2 b1 b2 =>
      (density_bounds (abs_le.2 ⟨by linarith, by linarith⟩) (abs_le.2 ⟨by linarith, by linarith⟩)).2 M M0 hM
  rw [cell_area hf]
  rw [ox, oy] at lo
  simp only [ox, oy] at hi
  have fin : rectVol C.uv.x.lo C.uv.x.hi C.uv.y.lo C.uv.y.hi ≠ ⊤ := by rw [← cell_rectVol hf]; exact solid_finite _
  constructor
  · have := (ENNReal.ofReal_le_iff_le_toReal fin).1 lo
    linarith
  · intro M M0 hM
    have := ENNReal.toReal_le_of_le_ofReal (by positivity) (hi M M0 hM)
    linarith

/-- **C102.** The area of a cell of level `k` is at least `MIN_AREAMETRIC.value(k)`, and at most `MAX_AREAMETRIC.value(k)` up to the rounding of the
    constant. -/
theorem c102_bounds {c : CellID} {C : Cell ℝ} (hc : Valid c) (hC : Cell.fromCellID _root_.id c = some C) {atan2 : ℝ → ℝ → ℝ} (hat : IsAtan2 atan2) :
    ∃ A, C.exactArea _root_.id Real.sqrt atan2 Real.tan Real.arctan = some A ∧
      (minAreaMetric _root_.id (Real.sqrt 2)).value C.level ≤ A ∧ A ≤ (maxAreaMetric (_root_.id : ℝ → ℝ)).value C.level * (1 + 1 / 2 ^ 53) := by
  refine ⟨_, c101_exactArea hc hC hat, ?_, ?_⟩
  · rw [value_area _ rfl, (cell_off hc hC).1]
    exact (area_between hc hC).1
  · rw [value_area _ rfl, (cell_off hc hC).1]
    have h := (area_between hc hC).2 (26357992569631614 / 10 ^ 16 * (1 + 1 / 2 ^ 53)) (by norm_num) ?_
    · refine h.trans (le_of_eq ?_)
      show _ = 26357992569631614 / 10 ^ 16 * _ * _
      ring
    · have r : Real.sqrt 5 ≤ 22360679774997896965 / 10 ^ 19 := by
        rw [Real.sqrt_le_left (by norm_num)]
        norm_num
      norm_num
      norm_num at r
      linarith

/-- **C102.** `average_area` is within a factor of 1.7 of the area. -/
theorem c102_average {c : CellID} {C : Cell ℝ} (hc : Valid c) (hC : Cell.fromCellID _root_.id c = some C) {atan2 : ℝ → ℝ → ℝ} (hat : IsAtan2 atan2) :
    ∃ A, C.exactArea _root_.id Real.sqrt atan2 Real.tan Real.arctan = some A ∧
      C.averageArea _root_.id Real.pi ≤ 1.7 * A ∧ A ≤ 1.7 * C.averageArea _root_.id Real.pi := by
  have e : C.averageArea _root_.id Real.pi = 4 * Real.pi / 6 * ((2 ^ lv c)⁻¹ * (2 ^ lv c)⁻¹) := by
    unfold Cell.averageArea
    rw [value_area _ rfl, (cell_off hc hC).1]
    rfl
  refine ⟨_, c101_exactArea hc hC hat, ?_, ?_⟩
  · have h := (area_between hc hC).1
    have r : (1.414 : ℝ) ≤ Real.sqrt 2 := Real.le_sqrt_of_sq_le (by norm_num)
    have p := Real.pi_lt_d2
    rw [e]
    have : 4 * Real.pi / 6 ≤ 1.7 * (8 * Real.sqrt 2 / 9) := by norm_num at p r ⊢; linarith
    have := mul_le_mul_of_nonneg_right this (show (0 : ℝ) ≤ (2 ^ lv c)⁻¹ * (2 ^ lv c)⁻¹ by positivity)
    linarith
  · have h := (area_between hc hC).2 2.64 (by norm_num) ?_
    · have p := Real.pi_gt_three
      rw [e]
      have : 2.64 ≤ 1.7 * (4 * Real.pi / 6) := by norm_num at p ⊢; linarith
      have := mul_le_mul_of_nonneg_right this (show (0 : ℝ) ≤ (2 ^ lv c)⁻¹ * (2 ^ lv c)⁻¹ by positivity)
      linarith
    · have r : Real.sqrt 5 ≤ 2.2361 := by
        rw [Real.sqrt_le_left (by norm_num)]
        norm_num
      norm_num at r ⊢
      linarith

/-! ## Adding up -/

theorem rectVol_split_x {xl xm xh : ℝ} (yl yh : ℝ) (h1 : xl ≤ xm) (h2 : xm ≤ xh) : rectVol xl xh yl yh = rectVol xl xm yl yh + rectVol xm xh yl yh := by
  have ae : ∀ a b : ℝ, (Set.Icc a b ×ˢ Set.Icc yl yh : Set (ℝ × ℝ)) =ᵐ[volume] (Set.Ioc a b ×ˢ Set.Icc yl yh : Set (ℝ × ℝ)) := fun a b =>
    Measure.set_prod_ae_eq Ioc_ae_eq_Icc.symm (Filter.EventuallyEq.refl _ _)
  unfold rectVol
  rw [setLIntegral_congr (ae xl xh), setLIntegral_congr (ae xl xm), setLIntegral_congr (ae xm xh), ← Set.Ioc_union_Ioc_eq_Ioc h1 h2, Set.union_prod,
    lintegral_union (measurableSet_Ioc.prod measurableSet_Icc)]
  rw [Set.disjoint_left]
  rintro ⟨u, v⟩ hu hv
  exact absurd hu.1.2 (not_le.2 hv.1.1)

theorem rectVol_swap (xl xh yl yh : ℝ) : rectVol xl xh yl yh = rectVol yl yh xl xh := by
  have m : Measurable fun q : ℝ × ℝ => ENNReal.ofReal ((Real.sqrt (1 + q.1 ^ 2 + q.2 ^ 2))⁻¹ ^ 3 / 3) := by fun_prop
  have h := (Measure.measurePreserving_swap (μ := (volume : Measure ℝ)) (ν := (volume : Measure ℝ))).setLIntegral_comp_preimage
    (s := Set.Icc yl yh ×ˢ Set.Icc xl xh) (measurableSet_Icc.prod measurableSet_Icc) m
  rw [Set.preimage_swap_prod] at h
  unfold rectVol
  refine Eq.trans ?_ h
  show _ = ∫⁻ q in Set.Icc xl xh ×ˢ Set.Icc yl yh, _ ∂volume
  refine lintegral_congr fun q => ?_
  show _ = ENNReal.ofReal ((Real.sqrt (1 + q.2 ^ 2 + q.1 ^ 2))⁻¹ ^ 3 / 3)
  rw [add_right_comm]

theorem rectVol_split_y {yl ym yh : ℝ} (xl xh : ℝ) (h1 : yl ≤ ym) (h2 : ym ≤ yh) : rectVol xl xh yl yh = rectVol xl xh yl ym + rectVol xl xh ym yh := by
  rw [rectVol_swap, rectVol_split_x _ _ h1 h2, rectVol_swap yl, rectVol_swap ym]

theorem rectVol_neg (xl xh yl yh : ℝ) : rectVol (-xh) (-xl) yl yh = rectVol xl xh yl yh := by
  have m : Measurable fun q : ℝ × ℝ => ENNReal.ofReal ((Real.sqrt (1 + q.1 ^ 2 + q.2 ^ 2))⁻¹ ^ 3 / 3) := by fun_prop
  have h := ((Measure.measurePreserving_neg (volume : Measure ℝ)).prod (MeasurePreserving.id (volume : Measure ℝ))).setLIntegral_comp_preimage
    (s := Set.Icc xl xh ×ˢ Set.Icc yl yh) (measurableSet_Icc.prod measurableSet_Icc) m
  have e : Prod.map Neg.neg _root_.id ⁻¹' (Set.Icc xl xh ×ˢ Set.Icc yl yh : Set (ℝ × ℝ)) = Set.Icc (-xh) (-xl) ×ˢ Set.Icc yl yh := by
    ext ⟨u, v⟩
    simp only [Set.mem_preimage, Set.mem_prod, Set.mem_Icc, Prod.map, _root_.id]
    constructor
    · rintro ⟨⟨a, b⟩, c⟩; exact ⟨⟨by linarith, by linarith⟩, c⟩
    · rintro ⟨⟨a, b⟩, c⟩; exact ⟨⟨by linarith, by linarith⟩, c⟩
  rw [e] at h
  unfold rectVol
  refine Eq.trans ?_ h
  show _ = ∫⁻ q in Set.Icc (-xh) (-xl) ×ˢ Set.Icc yl yh, _ ∂volume
  refine lintegral_congr fun q => ?_
  show _ = ENNReal.ofReal ((Real.sqrt (1 + (-q.1) ^ 2 + q.2 ^ 2))⁻¹ ^ 3 / 3)
  rw [neg_sq]

theorem rectVol_ne_top (xl xh yl yh : ℝ) : rectVol xl xh yl yh ≠ ⊤ := by
  have h := cell_rectVol (C := ⟨0, 0, 0, ⟨0⟩, ⟨⟨xl, xh⟩, ⟨yl, yh⟩⟩⟩) (by norm_num)
  rw [← h]
  exact solid_finite _

/-- The rectangle of a valid cell. -/
theorem cell_rect {c : CellID} {C : Cell ℝ} (hc : Valid c) (hC : Cell.fromCellID _root_.id c = some C) :
    C.face = sf c ∧ C.level = lv c ∧ C.uv = uvRect _root_.id (((sr c).1 * ss c : Nat) : Int) (((sr c).2.1 * ss c : Nat) : Int) ((ss c : Nat) : Int) := by
  have r1 := (c68_from (_root_.id : ℝ → ℝ) hc hc.level hc.square hc.faceIJ).1
  rw [hC] at r1
  rw [Option.some.inj r1]
  exact ⟨rfl, rfl, rfl⟩

/-- The area of a valid cell by its grid lines. -/
theorem cell_area_lines {c : CellID} {C : Cell ℝ} (hc : Valid c) (hC : Cell.fromCellID _root_.id c = some C) :
    sphereArea (InCell C) = 3 * (rectVol (uvLine _root_.id (((sr c).1 * ss c : Nat) : Int)) (uvLine _root_.id ((((sr c).1 + 1) * ss c : Nat) : Int))
      (uvLine _root_.id (((sr c).2.1 * ss c : Nat) : Int)) (uvLine _root_.id ((((sr c).2.1 + 1) * ss c : Nat) : Int))).toReal := by
  obtain ⟨h1, -, h2⟩ := cell_rect hc hC
  rw [cell_area (by rw [h1]; exact hc.sf_lt), h2]
  unfold uvRect
  dsimp only
  have e : ∀ a : Nat, (((a * ss c : Nat) : Int) + ((ss c : Nat) : Int)) = (((a + 1) * ss c : Nat) : Int) := by intro a; push_cast; ring
  rw [e, e]

/-- **C102.** The area of a cell is the sum of the areas of its children. -/
theorem c102_children {c : CellID} {C : Cell ℝ} (hc : Valid c) (hl : lv c < 30) (hC : Cell.fromCellID _root_.id c = some C) {D : Nat → Cell ℝ}
    (hD : ∀ d, d < 4 → Cell.fromCellID _root_.id (kid c d) = some (D d)) :
    sphereArea (InCell C) = sphereArea (InCell (D 0)) + sphereArea (InCell (D 1)) + sphereArea (InCell (D 2)) + sphereArea (InCell (D 3)) := by
  have sk : ∀ d, d < 4 → ss c = 2 * ss (kid c d) := by
    intro d hd
    unfold ss
    rw [lv_kid hc hl hd, show 30 - lv c = (30 - (lv c + 1)) + 1 by omega, pow_succ, mul_comm]
  obtain ⟨h, hh⟩ : ∃ h, h = ss (kid c 0) := ⟨_, rfl⟩
  have ek : ∀ d, d < 4 → ss (kid c d) = h := by intro d hd; have := sk d hd; have := sk 0 (by norm_num); omega
  have ec : ss c = 2 * h := by rw [hh]; exact sk 0 (by norm_num)
  have hp : 0 < h := by rw [hh]; exact ss_pos _
  obtain ⟨L, hL⟩ : ∃ L : Nat → ℝ, L = fun a => uvLine (_root_.id : ℝ → ℝ) ((a * h : Nat) : Int) := ⟨_, rfl⟩
  have mono : ∀ a, L a ≤ L (a + 1) := by
    intro a
    rw [hL]
    refine c59_stToUV_strictMono.monotone ?_
    show (((a * h : Nat) : Int) : ℝ) / 2 ^ 30 ≤ ((((a + 1) * h : Nat) : Int) : ℝ) / 2 ^ 30
    have : (a * h : ℝ) ≤ (a + 1) * h := by nlinarith [show (0 : ℝ) ≤ h from Nat.cast_nonneg h]
    push_cast
    gcongr
  obtain ⟨i, hi⟩ : ∃ i, i = (sr c).1 := ⟨_, rfl⟩
  obtain ⟨j, hj⟩ : ∃ i, i = (sr c).2.1 := ⟨_, rfl⟩
  obtain ⟨o, ho⟩ : ∃ i, i = (sr c).2.2 := ⟨_, rfl⟩
  have par : sphereArea (InCell C) = 3 * (rectVol (L (2 * i)) (L (2 * i + 2)) (L (2 * j)) (L (2 * j + 2))).toReal := by
    rw [cell_area_lines hc hC, ec, ← hi, ← hj, hL]
    dsimp only
    rw [show i * (2 * h) = 2 * i * h by ring, show (i + 1) * (2 * h) = (2 * i + 2) * h by ring, show j * (2 * h) = 2 * j * h by ring,
      show (j + 1) * (2 * h) = (2 * j + 2) * h by ring]
  have ch : ∀ d, d < 4 → sphereArea (InCell (D d)) = 3 * (rectVol (L (2 * i + (quad o d).1)) (L (2 * i + (quad o d).1 + 1)) (L (2 * j + (quad o d).2))
      (L (2 * j + (quad o d).2 + 1))).toReal := by
    intro d hd
    rw [cell_area_lines (kid_valid hc hl hd) (hD d hd), ek d hd, (kid_sr hc hl hd).2, ← hi, ← hj, ← ho, hL, mul_comm i, mul_comm j]
  rw [par, ch 0 (by norm_num), ch 1 (by norm_num), ch 2 (by norm_num), ch 3 (by norm_num),
    rectVol_split_x _ _ (mono (2 * i)) (mono (2 * i + 1)), rectVol_split_y _ _ (mono (2 * j)) (mono (2 * j + 1)),
    rectVol_split_y (L (2 * i + 1)) _ (mono (2 * j)) (mono (2 * j + 1))]
  have ne := rectVol_ne_top
  rw [ENNReal.toReal_add (ENNReal.add_ne_top.2 ⟨ne _ _ _ _, ne _ _ _ _⟩) (ENNReal.add_ne_top.2 ⟨ne _ _ _ _, ne _ _ _ _⟩), ENNReal.toReal_add (ne _ _ _ _) (ne _ _ _ _),
    ENNReal.toReal_add (ne _ _ _ _) (ne _ _ _ _)]
  have o4 : o < 4 := by rw [ho]; exact hc.sr_lt.2.2
  have q0 : ∀ {d a b : Nat}, quad o d = (a, b) → (quad o d).1 = a ∧ (quad o d).2 = b := by intro d a b h; rw [h]; exact ⟨rfl, rfl⟩
  clear ho
  interval_cases o
  · rw [(q0 (d := 0) (a := 0) (b := 0) rfl).1, (q0 (d := 0) (a := 0) (b := 0) rfl).2, (q0 (d := 1) (a := 0) (b := 1) rfl).1, (q0 (d := 1) (a := 0) (b := 1) rfl).2,
      (q0 (d := 2) (a := 1) (b := 1) rfl).1, (q0 (d := 2) (a := 1) (b := 1) rfl).2, (q0 (d := 3) (a := 1) (b := 0) rfl).1, (q0 (d := 3) (a := 1) (b := 0) rfl).2]
    simp only [Nat.add_zero]
    ring
  · rw [(q0 (d := 0) (a := 0) (b := 0) rfl).1, (q0 (d := 0) (a := 0) (b := 0) rfl).2, (q0 (d := 1) (a := 1) (b := 0) rfl).1, (q0 (d := 1) (a := 1) (b := 0) rfl).2,
      (q0 (d := 2) (a := 1) (b := 1) rfl).1, (q0 (d := 2) (a := 1) (b := 1) rfl).2, (q0 (d := 3) (a := 0) (b := 1) rfl).1, (q0 (d := 3) (a := 0) (b := 1) rfl).2]
    simp only [Nat.add_zero]
    ring
  · rw [(q0 (d := 0) (a := 1) (b := 1) rfl).1, (q0 (d := 0) (a := 1) (b := 1) rfl).2, (q0 (d := 1) (a := 1) (b := 0) rfl).1, (q0 (d := 1) (a := 1) (b := 0) rfl).2,
      (q0 (d := 2) (a := 0) (b := 0) rfl).1, (q0 (d := 2) (a := 0) (b := 0) rfl).2, (q0 (d := 3) (a := 0) (b := 1) rfl).1, (q0 (d := 3) (a := 0) (b := 1) rfl).2]
    simp only [Nat.add_zero]
    ring
  · rw [(q0 (d := 0) (a := 1) (b := 1) rfl).1, (q0 (d := 0) (a := 1) (b := 1) rfl).2, (q0 (d := 1) (a := 0) (b := 1) rfl).1, (q0 (d := 1) (a := 0) (b := 1) rfl).2,
      (q0 (d := 2) (a := 0) (b := 0) rfl).1, (q0 (d := 2) (a := 0) (b := 0) rfl).2, (q0 (d := 3) (a := 1) (b := 0) rfl).1, (q0 (d := 3) (a := 1) (b := 0) rfl).2]
    simp only [Nat.add_zero]
    ring

/-- **C102.** `exact_area` of a cell is the sum of the `exact_area`s of its children. -/
theorem c102_exactArea_children {c : CellID} {k : Nat} {C : Cell ℝ} (hc : Valid c) (hk : c.level = some k) (hk30 : k < 30) (hC : Cell.fromCellID _root_.id c = some C)
    {atan2 : ℝ → ℝ → ℝ} (hat : IsAtan2 atan2) :
    ∃ Ds As, C.children _root_.id = some (some Ds) ∧ Ds.mapM (Cell.exactArea _root_.id Real.sqrt atan2 Real.tan Real.arctan) = some As ∧ As.length = 4 ∧
      C.exactArea _root_.id Real.sqrt atan2 Real.tan Real.arctan = some As.sum := by
  have hl : lv c < 30 := by have := lv_of_level hk; omega
  obtain ⟨xs, Ds, e1, e2, e3⟩ := c68_children _root_.id hc hk hk30 hC
  have ec : c.children = some [kid c 0, kid c 1, kid c 2, kid c 3] := by
    conv_lhs => rw [hc.eq, children_mk hc.isCell hl]
    rfl
  rw [ec] at e1
  obtain rfl := Option.some.inj e1
  have ex : ∀ d, ∃ D, d < 4 → Cell.fromCellID (_root_.id : ℝ → ℝ) (kid c d) = some D := by
    intro d
    by_cases hd : d < 4
    · exact ⟨_, fun _ => (c68_from (_root_.id : ℝ → ℝ) (kid_valid hc hl hd) (kid_valid hc hl hd).level (kid_valid hc hl hd).square (kid_valid hc hl hd).faceIJ).1⟩
    · exact ⟨C, fun h => absurd h hd⟩
  choose D hD using ex
  have f0 := hD 0 (by norm_num)
  have f1 := hD 1 (by norm_num)
  have f2 := hD 2 (by norm_num)
  have f3 := hD 3 (by norm_num)
  simp only [List.mapM_cons, List.mapM_nil, f0, f1, f2, f3, Option.bind_eq_bind, Option.bind_some, Option.pure_def, Option.some.injEq] at e3
  subst e3
  have a : ∀ d, d < 4 → (D d).exactArea _root_.id Real.sqrt atan2 Real.tan Real.arctan = some (sphereArea (InCell (D d))) := fun d hd =>
    c101_exactArea (kid_valid hc hl hd) (hD d hd) hat
  refine ⟨_, [sphereArea (InCell (D 0)), sphereArea (InCell (D 1)), sphereArea (InCell (D 2)), sphereArea (InCell (D 3))], e2, ?_, rfl, ?_⟩
  · simp only [List.mapM_cons, List.mapM_nil, a 0 (by norm_num), a 1 (by norm_num), a 2 (by norm_num), a 3 (by norm_num), Option.bind_eq_bind, Option.bind_some, Option.pure_def]
  · rw [c101_exactArea hc hC hat, c102_children hc hl hC hD]
    simp only [List.sum_cons, List.sum_nil]
    exact congrArg some (by ring)

/-! ## Levels 0 and 1 -/

theorem face_triangle {a b c : Vec ℝ} (ha : UnitV a) (hb : UnitV b) (hc : UnitV c) (hd : det a b c ≠ 0) {p q r : ℝ} (h1 : dot a b = p) (h2 : dot b c = q) (h3 : dot c a = r)
    (h : (p = 1 / 3 ∧ q = 1 / 3 ∧ r = -1 / 3) ∨ (p = -1 / 3 ∧ q = 1 / 3 ∧ r = 1 / 3)) : sphereArea (InTriangle a b c) = Real.pi / 3 := by
  have third : Real.arccos (1 / 2) = Real.pi / 3 := by
    rw [← Real.cos_pi_div_three, Real.arccos_cos (by positivity) (by linarith [Real.pi_pos])]
  have third2 : Real.arccos (-(1 / 2)) = 2 * Real.pi / 3 := by rw [Real.arccos_neg, third]; ring
  have sq : ∀ x : ℝ, (x = 1 / 3 ∨ x = -1 / 3) → 1 - x ^ 2 = 8 / 9 := by rintro x (rfl | rfl) <;> norm_num
  have k : ∀ {p r q : ℝ}, (p = 1 / 3 ∨ p = -1 / 3) → (r = 1 / 3 ∨ r = -1 / 3) → cornerAngle p r q = Real.arccos ((q - p * r) / (8 / 9)) := by
    intro p r q hp hr
    unfold cornerAngle
    rw [sq p hp, sq r hr, Real.mul_self_sqrt (by norm_num)]
  rw [area_corners ha hb hc hd, h1, h2, h3]
  rcases h with ⟨rfl, rfl, rfl⟩ | ⟨rfl, rfl, rfl⟩
  · rw [k (Or.inl rfl) (Or.inr rfl), k (Or.inl rfl) (Or.inl rfl), show ((1 / 3 : ℝ) - 1 / 3 * (-1 / 3)) / (8 / 9) = 1 / 2 by norm_num,
      show ((-1 / 3 : ℝ) - 1 / 3 * (1 / 3)) / (8 / 9) = -(1 / 2) by norm_num, third, third2]
    ring
  · rw [k (Or.inr rfl) (Or.inl rfl), k (Or.inl rfl) (Or.inl rfl), show ((1 / 3 : ℝ) - -1 / 3 * (1 / 3)) / (8 / 9) = 1 / 2 by norm_num,
      show ((-1 / 3 : ℝ) - 1 / 3 * (1 / 3)) / (8 / 9) = -(1 / 2) by norm_num, third, third2]
    ring

/-- A face of the cube is a sixth of the sphere. -/
theorem rectVol_face : 3 * (rectVol (-1) 1 (-1) 1).toReal = 4 * Real.pi / 6 := by
  obtain ⟨C, hC⟩ : ∃ C : Cell ℝ, C = ⟨0, 0, 0, ⟨0⟩, ⟨⟨-1, 1⟩, ⟨-1, 1⟩⟩⟩ := ⟨_, rfl⟩
  have hf : C.face < 6 := by rw [hC]; norm_num
  have e := cell_area hf
  obtain ⟨V0, V1, V2, V3, e0, e1, e2, e3, n0, n1, n2, n3, d1, d2, ee⟩ := cell_triangles hf (by rw [hC]; norm_num) (by rw [hC]; norm_num)
  have vx : ∀ {k : Nat} {V : Vec ℝ} (y z : ℝ), k < 4 → corner C.uv k = (y, z) → y ^ 2 = 1 → z ^ 2 = 1 → C.vertex _root_.id Real.sqrt k = some V →
      V = smul (Real.sqrt 3)⁻¹ ⟨1, y, z⟩ := by
    intro k V y z hk hc y2 z2 hV
    obtain ⟨W, w, t, g1, g2, g3, g4, g5⟩ := c75_vertex isSqrt_real hf (C := C) hk
    rw [hc] at g2
    have g2' : faceUVtoXYZ 0 y z = some w := by rw [← g2, hC]
    obtain rfl : (⟨1, y, z⟩ : Vec ℝ) = w := Option.some.inj g2'
    rw [hV] at g1
    rw [Option.some.inj g1, g4]
    rw [g4] at g5
    have t3 : t ^ 2 * 3 = 1 := by
      have : dot (smul t (⟨1, y, z⟩ : Vec ℝ)) (smul t ⟨1, y, z⟩) = t ^ 2 * (1 + y ^ 2 + z ^ 2) := by simp only [dot, smul]; ring
      rw [this, y2, z2] at g5
      linarith
    have s3 := Real.sq_sqrt (show (0 : ℝ) ≤ 3 by norm_num)
    have s0 := Real.sqrt_pos.2 (show (0 : ℝ) < 3 by norm_num)
    have : (t * Real.sqrt 3) ^ 2 = 1 := by rw [mul_pow, s3]; exact t3
    have p : 0 < t * Real.sqrt 3 := mul_pos g3 s0
    have : t * Real.sqrt 3 = 1 := by nlinarith
    rw [eq_inv_of_mul_eq_one_left this]
  have v0 := vx (-1) (-1) (by norm_num) (by rw [hC]; rfl) (by norm_num) (by norm_num) e0
  have v1 := vx 1 (-1) (by norm_num) (by rw [hC]; rfl) (by norm_num) (by norm_num) e1
  have v2 := vx 1 1 (by norm_num) (by rw [hC]; rfl) (by norm_num) (by norm_num) e2
  have v3 := vx (-1) 1 (by norm_num) (by rw [hC]; rfl) (by norm_num) (by norm_num) e3
  have dt : ∀ y z y' z' : ℝ, dot (smul (Real.sqrt 3)⁻¹ (⟨1, y, z⟩ : Vec ℝ)) (smul (Real.sqrt 3)⁻¹ ⟨1, y', z'⟩) = (1 + y * y' + z * z') / 3 := by
    intro y z y' z'
    have : (Real.sqrt 3)⁻¹ * (Real.sqrt 3)⁻¹ = 1 / 3 := by rw [← mul_inv, Real.mul_self_sqrt (by norm_num)]; norm_num
    have e : dot (smul (Real.sqrt 3)⁻¹ (⟨1, y, z⟩ : Vec ℝ)) (smul (Real.sqrt 3)⁻¹ ⟨1, y', z'⟩) = (Real.sqrt 3)⁻¹ * (Real.sqrt 3)⁻¹ * (1 + y * y' + z * z') := by
      simp only [dot, smul]; ring
    rw [e, this]
    ring
  rw [face_triangle n0 n1 n2 d1 rfl rfl rfl (Or.inl ⟨by rw [v0, v1, dt]; norm_num, by rw [v1, v2, dt]; norm_num, by rw [v2, v0, dt]; norm_num⟩),
    face_triangle n0 n2 n3 d2 rfl rfl rfl (Or.inr ⟨by rw [v0, v2, dt]; norm_num, by rw [v2, v3, dt]; norm_num, by rw [v3, v0, dt]; norm_num⟩)] at ee
  rw [e] at ee
  rw [hC] at ee
  dsimp only at ee
  rw [ee]
  ring

theorem rectVol_quarter {xl xh yl yh : ℝ} (hx : (xl = -1 ∧ xh = 0) ∨ (xl = 0 ∧ xh = 1)) (hy : (yl = -1 ∧ yh = 0) ∨ (yl = 0 ∧ yh = 1)) :
    3 * (rectVol xl xh yl yh).toReal = 4 * Real.pi / 6 / 4 := by
  have nx : ∀ yl yh : ℝ, rectVol (-1) 0 yl yh = rectVol 0 1 yl yh := by
    intro yl yh
    have := rectVol_neg 0 1 yl yh
    rwa [neg_zero] at this
  have ny : ∀ xl xh : ℝ, rectVol xl xh (-1) 0 = rectVol xl xh 0 1 := by
    intro xl xh
    rw [rectVol_swap, nx, rectVol_swap]
  have h := rectVol_face
  have ne := rectVol_ne_top
  rw [rectVol_split_x _ _ (show (-1 : ℝ) ≤ 0 by norm_num) (show (0 : ℝ) ≤ 1 by norm_num), nx, rectVol_split_y _ _ (show (-1 : ℝ) ≤ 0 by norm_num) (show (0 : ℝ) ≤ 1 by norm_num),
    ny, ENNReal.toReal_add (ENNReal.add_ne_top.2 ⟨ne _ _ _ _, ne _ _ _ _⟩) (ENNReal.add_ne_top.2 ⟨ne _ _ _ _, ne _ _ _ _⟩), ENNReal.toReal_add (ne _ _ _ _) (ne _ _ _ _)] at h
  have e : rectVol xl xh yl yh = rectVol 0 1 0 1 := by
    rcases hx with ⟨rfl, rfl⟩ | ⟨rfl, rfl⟩ <;> rcases hy with ⟨rfl, rfl⟩ | ⟨rfl, rfl⟩
    · rw [nx, ny]
    · rw [nx]
    · rw [ny]
    · rfl
  rw [e]
  linarith

/-- **C102.** All cells of level 0 have the same area, and all cells of level 1: `average_area` and `approx_area` are exact. -/
theorem c102_coarse {c : CellID} {C : Cell ℝ} (hc : Valid c) (hC : Cell.fromCellID _root_.id c = some C) (hl : C.level < 2) {atan2 : ℝ → ℝ → ℝ} (hat : IsAtan2 atan2) :
    C.exactArea _root_.id Real.sqrt atan2 Real.tan Real.arctan = some (C.averageArea _root_.id Real.pi) ∧
    C.approxArea _root_.id Real.sqrt Real.pi = some (C.averageArea _root_.id Real.pi) := by
  refine ⟨?_, by unfold Cell.approxArea; rw [if_pos hl]⟩
  obtain ⟨h1, h2, h3⟩ := cell_rect hc hC
  have e : C.averageArea _root_.id Real.pi = 4 * Real.pi / 6 * ((2 ^ lv c)⁻¹ * (2 ^ lv c)⁻¹) := by
    unfold Cell.averageArea
    rw [value_area _ rfl, h2]
    rfl
  rw [c101_exactArea hc hC hat, e, cell_area_lines hc hC]
  have hb := hc.sr_lt
  have hm := hc.ss_mul
  obtain ⟨q0, q1, q2⟩ := c59_stToUV_ends (K := ℝ)
  refine congrArg some ?_
  rw [h2] at hl
  have u0 : uvLine (_root_.id : ℝ → ℝ) ((0 : Nat) : Int) = -1 := Eq.trans (congrArg (stToUV _root_.id) (show (((0 : Nat) : Int) : ℝ) / 2 ^ 30 = 0 by norm_num)) q0
  have u1 : uvLine (_root_.id : ℝ → ℝ) ((536870912 : Nat) : Int) = 0 := Eq.trans (congrArg (stToUV _root_.id) (show (((536870912 : Nat) : Int) : ℝ) / 2 ^ 30 = 1 / 2 by norm_num)) q1
  have u2 : uvLine (_root_.id : ℝ → ℝ) ((1073741824 : Nat) : Int) = 1 := Eq.trans (congrArg (stToUV _root_.id) (show (((1073741824 : Nat) : Int) : ℝ) / 2 ^ 30 = 1 by norm_num)) q2
  rcases Nat.lt_or_ge (lv c) 1 with h | h
  · have l0 : lv c = 0 := by omega
    rw [l0] at hm hb ⊢
    have s : ss c = 1073741824 := by omega
    have i0 : (sr c).1 = 0 := by omega
    have j0 : (sr c).2.1 = 0 := by omega
    rw [i0, j0, s, Nat.zero_mul, Nat.zero_add, Nat.one_mul, u0, u2, rectVol_face]
    norm_num
  · have l1 : lv c = 1 := by omega
    rw [l1] at hm hb ⊢
    have s : ss c = 536870912 := by omega
    have i0 : (sr c).1 = 0 ∨ (sr c).1 = 1 := by omega
    have j0 : (sr c).2.1 = 0 ∨ (sr c).2.1 = 1 := by omega
    have ln : ∀ a : Nat, a = 0 ∨ a = 1 → (uvLine (_root_.id : ℝ → ℝ) ((a * 536870912 : Nat) : Int) = -1 ∧ uvLine (_root_.id : ℝ → ℝ) (((a + 1) * 536870912 : Nat) : Int) = 0) ∨
        (uvLine (_root_.id : ℝ → ℝ) ((a * 536870912 : Nat) : Int) = 0 ∧ uvLine (_root_.id : ℝ → ℝ) (((a + 1) * 536870912 : Nat) : Int) = 1) := by
      rintro a (rfl | rfl)
      · left; exact ⟨u0, u1⟩
      · right; exact ⟨u1, u2⟩
    rw [s, rectVol_quarter (ln _ i0) (ln _ j0)]
    norm_num
    ring

/-- A cell of level 10, and its children. -/
example : ∃ C : Cell ℝ, Cell.fromCellID _root_.id ⟨0x6060730000000000#64⟩ = some C ∧ C.level = 10 ∧ ∃ Ds As, C.children _root_.id = some (some Ds) ∧
    Ds.mapM (Cell.exactArea _root_.id Real.sqrt (fun y x => (Complex.mk x y).arg) Real.tan Real.arctan) = some As ∧ As.length = 4 ∧
      C.exactArea _root_.id Real.sqrt (fun y x => (Complex.mk x y).arg) Real.tan Real.arctan = some As.sum :=
  have h := (c68_from (_root_.id : ℝ → ℝ) exCell.1 exCell.2.1 exCell.1.square exCell.1.faceIJ).1
  ⟨_, h, rfl, c102_exactArea_children exCell.1 exCell.2.1 (by norm_num) h isAtan2_arg⟩

/-- The bounds for the same cell. -/
example : ∃ (C : Cell ℝ) (A : ℝ), Cell.fromCellID _root_.id ⟨0x6060730000000000#64⟩ = some C ∧
    C.exactArea _root_.id Real.sqrt (fun y x => (Complex.mk x y).arg) Real.tan Real.arctan = some A ∧ C.averageArea _root_.id Real.pi ≤ 1.7 * A :=
  have h := (c68_from (_root_.id : ℝ → ℝ) exCell.1 exCell.2.1 exCell.1.square exCell.1.faceIJ).1
  let ⟨A, e, h1, _⟩ := c102_average exCell.1 h isAtan2_arg
  ⟨_, A, h, e, h1⟩

end Verif
