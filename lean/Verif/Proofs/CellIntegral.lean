import Verif.Proofs.ConeVolume
import Verif.Properties.CellArea
import Mathlib.MeasureTheory.Integral.DivergenceTheorem

/-!
# The area of a cell as an integral over its rectangle, and bounds for it
-/

namespace Verif
open Spec MeasureTheory CellID

/-- A third of the area of the directions through a rectangle of the plane at distance 1. -/
noncomputable def rectVol (xl xh yl yh : ℝ) : ENNReal :=
  ∫⁻ q in Set.Icc xl xh ×ˢ Set.Icc yl yh, ENNReal.ofReal ((Real.sqrt (1 + q.1 ^ 2 + q.2 ^ 2))⁻¹ ^ 3 / 3)

theorem cell_rectVol {C : Cell ℝ} (hf : C.face < 6) : volume (solid (InCell C)) = rectVol C.uv.x.lo C.uv.x.hi C.uv.y.lo C.uv.y.hi := by
  obtain ⟨a, b, n, -, -, -, ha, hb, hn, hab, hbn, han, hcr, huv, -⟩ := c73_frame (K := ℝ) hf
  have cc := inCell_coords ha hb hn hab hbn han hcr huv
  unfold rectVol
  rw [← volume_cone]
  obtain ⟨Q, hQ⟩ : ∃ Q : Set (Fin 3 → ℝ), Q = {v | 0 < v 2 ∧ C.uv.x.lo * v 2 ≤ v 0 ∧ v 0 ≤ C.uv.x.hi * v 2 ∧ C.uv.y.lo * v 2 ≤ v 1 ∧ v 1 ≤ C.uv.y.hi * v 2 ∧
      v 0 ^ 2 + v 1 ^ 2 + v 2 ^ 2 ≤ 1} := ⟨_, rfl⟩
  have mQ : MeasurableSet Q := by
    have m0 : MeasurableSet {w : Fin 3 → ℝ | 0 < w 2} := measurableSet_lt (f := fun _ : Fin 3 → ℝ => (0 : ℝ)) (g := fun w : Fin 3 → ℝ => w 2) measurable_const (by fun_prop)
    have m1 : ∀ (k : ℝ) (i : Fin 3), MeasurableSet {w : Fin 3 → ℝ | k * w 2 ≤ w i} := fun k i =>
      measurableSet_le (f := fun w : Fin 3 → ℝ => k * w 2) (g := fun w : Fin 3 → ℝ => w i) (by fun_prop) (by fun_prop)
    have m2 : ∀ (k : ℝ) (i : Fin 3), MeasurableSet {w : Fin 3 → ℝ | w i ≤ k * w 2} := fun k i =>
      measurableSet_le (f := fun w : Fin 3 → ℝ => w i) (g := fun w : Fin 3 → ℝ => k * w 2) (by fun_prop) (by fun_prop)
    have m5 : MeasurableSet {w : Fin 3 → ℝ | w 0 ^ 2 + w 1 ^ 2 + w 2 ^ 2 ≤ 1} :=
      measurableSet_le (f := fun w : Fin 3 → ℝ => w 0 ^ 2 + w 1 ^ 2 + w 2 ^ 2) (by fun_prop) measurable_const
    rw [hQ]
    exact m0.inter ((m1 _ 0).inter ((m2 _ 0).inter ((m1 _ 1).inter ((m2 _ 1).inter m5))))
  rw [← hQ, ← volume_frame ha hb hn hab han hbn mQ]
  congr 1
  ext v
  show (InCell C (vecOf v) ∧ dot (vecOf v) (vecOf v) ≤ 1) ↔ ![dot a (vecOf v), dot b (vecOf v), dot n (vecOf v)] ∈ Q
  rw [hQ, cc]
  have fs := frame_square (n := a) (e := b) ha hb hab (vecOf v)
  rw [hcr] at fs
  rw [← fs]
  simp only [Set.mem_ofPred_eq, Matrix.cons_val_zero, Matrix.cons_val_one, Matrix.cons_val, pow_two]
  tauto

/-- The derivative of `s` by `u` for the quadratic projection. -/
noncomputable def stDensity (u : ℝ) : ℝ := 3 / (4 * Real.sqrt (1 + 3 * |u|))

/-- `s - 1/2` as a function of `u`. -/
noncomputable def stOff (u : ℝ) : ℝ := 3 / 2 * u / (1 + Real.sqrt (1 + 3 * |u|))

theorem stOff_stToUV (s : ℝ) : stOff (stToUV _root_.id s) = s - 1 / 2 := by
  unfold stToUV
  split_ifs with h
  · have h' : 1 / 2 ≤ s := h
    have e : (_root_.id (_root_.id (1 / 3) * _root_.id (_root_.id (_root_.id (4 * s) * s) - 1)) : ℝ) = (4 * s ^ 2 - 1) / 3 := by
      simp only [_root_.id]; ring
    rw [e]
    unfold stOff
    rw [abs_of_nonneg (by nlinarith), show 1 + 3 * ((4 * s ^ 2 - 1) / 3) = (2 * s) ^ 2 by ring, Real.sqrt_sq (by linarith)]
    have : 1 + 2 * s ≠ 0 := by linarith
    field_simp
    ring
  · have h' : s < 1 / 2 := not_le.1 h
    have e : (_root_.id (_root_.id (1 / 3) * _root_.id (1 - _root_.id (_root_.id (4 * _root_.id (1 - s)) * _root_.id (1 - s)))) : ℝ) = (1 - 4 * (1 - s) ^ 2) / 3 := by
      simp only [_root_.id]; ring
    rw [e]
    unfold stOff
    rw [abs_of_nonpos (by nlinarith), show 1 + 3 * -((1 - 4 * (1 - s) ^ 2) / 3) = (2 * (1 - s)) ^ 2 by ring, Real.sqrt_sq (by linarith)]
    have : 1 + 2 * (1 - s) ≠ 0 := by linarith
    field_simp
    ring

theorem stOff_pos {u : ℝ} (h : 0 ≤ u) : stOff u = 1 / 2 * Real.sqrt (1 + 3 * u) - 1 / 2 := by
  unfold stOff
  rw [abs_of_nonneg h]
  have s2 := Real.sq_sqrt (show 0 ≤ 1 + 3 * u by linarith)
  have s0 := Real.sqrt_nonneg (1 + 3 * u)
  have : 1 + Real.sqrt (1 + 3 * u) ≠ 0 := by linarith
  field_simp
  nlinarith

theorem stOff_neg (u : ℝ) : stOff (-u) = -stOff u := by
  unfold stOff
  rw [abs_neg]
  ring

theorem stOff_deriv {u : ℝ} (h : u ≠ 0) : HasDerivAt stOff (stDensity u) u := by
  have pos : ∀ {u : ℝ}, 0 < u → HasDerivAt stOff (stDensity u) u := by
    intro u h
    have h1 : HasDerivAt (fun x : ℝ => 1 + 3 * x) 3 u := by
      simpa using ((hasDerivAt_id u).const_mul 3).const_add 1
    have h2 := ((h1.sqrt (by linarith)).const_mul (1 / 2)).sub_const (1 / 2)
    have e : 1 / 2 * (3 / (2 * Real.sqrt (1 + 3 * u))) = stDensity u := by
      unfold stDensity
      rw [abs_of_pos h]
      have := Real.sqrt_pos.2 (show 0 < 1 + 3 * u by linarith)
      field_simp
      norm_num
    rw [e] at h2
    refine h2.congr_of_eventuallyEq ?_
    filter_upwards [lt_mem_nhds h] with x hx
    exact stOff_pos (le_of_lt hx)
  rcases lt_or_gt_of_ne h with h | h
  · have h1 := (pos (neg_pos.2 h)).comp u (hasDerivAt_neg u)
    have h2 := h1.neg
    have e : -(stDensity (-u) * -1) = stDensity u := by unfold stDensity; rw [abs_neg]; ring
    rw [e] at h2
    refine h2.congr_of_eventuallyEq (Filter.Eventually.of_forall fun x => ?_)
    show stOff x = -stOff (-x)
    rw [stOff_neg, neg_neg]
  · exact pos h

theorem stDensity_pos (u : ℝ) : 0 < stDensity u := by
  unfold stDensity
  have : 0 < Real.sqrt (1 + 3 * |u|) := Real.sqrt_pos.2 (by positivity)
  positivity

theorem stDensity_cont : Continuous stDensity := by
  unfold stDensity
  refine Continuous.div continuous_const (by fun_prop) fun u => ?_
  have : 0 < Real.sqrt (1 + 3 * |u|) := Real.sqrt_pos.2 (by positivity)
  positivity

theorem stOff_cont : Continuous stOff := by
  unfold stOff
  refine Continuous.div (by fun_prop) (by fun_prop) fun u => ?_
  have := Real.sqrt_nonneg (1 + 3 * |u|)
  positivity

/-- The integral of the density over an interval is the length in `s`. -/
theorem lintegral_density {a b : ℝ} (h : a ≤ b) : ∫⁻ u in Set.Icc a b, ENNReal.ofReal (stDensity u) = ENNReal.ofReal (stOff b - stOff a) := by
  rw [← restrict_Ioc_eq_restrict_Icc, ← ofReal_integral_eq_lintegral_ofReal]
  · congr 1
    rw [← intervalIntegral.integral_of_le h]
    refine integral_eq_of_hasDerivAt_off_countable stOff stDensity (Set.countable_singleton (0 : ℝ)) stOff_cont.continuousOn
      (fun x hx => stOff_deriv fun h0 => hx.2 h0) (stDensity_cont.intervalIntegrable _ _)
  · exact (intervalIntegrable_iff_integrableOn_Ioc_of_le h).1 (stDensity_cont.intervalIntegrable _ _)
  · exact Filter.Eventually.of_forall fun z => (stDensity_pos z).le

/-- The integral of a multiple of the product of the densities. -/
theorem lintegral_density2 {xl xh yl yh k : ℝ} (hx : xl ≤ xh) (hy : yl ≤ yh) (hk : 0 ≤ k) :
    ∫⁻ q in Set.Icc xl xh ×ˢ Set.Icc yl yh, ENNReal.ofReal (k * (stDensity q.1 * stDensity q.2)) =
      ENNReal.ofReal (k * ((stOff xh - stOff xl) * (stOff yh - stOff yl))) := by
  have e : (volume : Measure (ℝ × ℝ)).restrict (Set.Icc xl xh ×ˢ Set.Icc yl yh) =
      ((volume : Measure ℝ).restrict (Set.Icc xl xh)).prod ((volume : Measure ℝ).restrict (Set.Icc yl yh)) := (Measure.prod_restrict _ _).symm
  have m : Measurable fun u => ENNReal.ofReal (stDensity u) := stDensity_cont.measurable.ennreal_ofReal
  rw [e]
  have e2 : ∀ q : ℝ × ℝ, ENNReal.ofReal (k * (stDensity q.1 * stDensity q.2)) = ENNReal.ofReal k * (ENNReal.ofReal (stDensity q.1) * ENNReal.ofReal (stDensity q.2)) := by
    intro q
    rw [ENNReal.ofReal_mul hk, ENNReal.ofReal_mul (stDensity_pos _).le]
  simp_rw [e2]
  have mono : ∀ {a b : ℝ}, a ≤ b → 0 ≤ stOff b - stOff a := by
    intro a b h
    have h1 := lintegral_density h
    by_contra hn
    have hd : 0 < ∫ u in a..b, stDensity u ∨ a = b := by
      rcases eq_or_lt_of_le h with h | h
      · exact Or.inr h
      · exact Or.inl (intervalIntegral.intervalIntegral_pos_of_pos (stDensity_cont.intervalIntegrable _ _) stDensity_pos h)
    have : ∫ u in a..b, stDensity u = stOff b - stOff a := integral_eq_of_hasDerivAt_off_countable stOff stDensity (Set.countable_singleton (0 : ℝ))
      stOff_cont.continuousOn (fun x hx => stOff_deriv fun h0 => hx.2 h0) (stDensity_cont.intervalIntegrable _ _)
    rcases hd with hd | hd
    · linarith
    · rw [hd] at hn; simp at hn
  have m2 : Measurable fun q : ℝ × ℝ => ENNReal.ofReal (stDensity q.1) * ENNReal.ofReal (stDensity q.2) :=
    (m.comp measurable_fst).mul (m.comp measurable_snd)
  rw [lintegral_const_mul _ m2, lintegral_prod_mul m.aemeasurable m.aemeasurable, lintegral_density hx, lintegral_density hy,
    ← ENNReal.ofReal_mul (mono hx), ← ENNReal.ofReal_mul hk]

end Verif
