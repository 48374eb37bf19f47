import Verif.Proofs.SolidAngle
import Mathlib.Analysis.SpecialFunctions.Integrals.Basic

/-!
# The volume of the part of the unit ball over a rectangle of a plane
-/

namespace Verif
open Spec MeasureTheory

theorem lintegral_sq {τ : ℝ} (h : 0 ≤ τ) : ∫⁻ z in Set.Ioc 0 τ, ENNReal.ofReal (z ^ 2) = ENNReal.ofReal (τ ^ 3 / 3) := by
  rw [← ofReal_integral_eq_lintegral_ofReal]
  · congr 1
    rw [← intervalIntegral.integral_of_le h, integral_pow]
    norm_num
  · have := (intervalIntegral.intervalIntegrable_pow (μ := volume) (a := 0) (b := τ) 2)
    exact (intervalIntegrable_iff_integrableOn_Ioc_of_le h).1 this
  · exact Filter.Eventually.of_forall fun z => by positivity

/-- The volume of a cone over a rectangle in the unit ball. -/
theorem volume_cone (xl xh yl yh : ℝ) :
    volume {v : Fin 3 → ℝ | 0 < v 2 ∧ xl * v 2 ≤ v 0 ∧ v 0 ≤ xh * v 2 ∧ yl * v 2 ≤ v 1 ∧ v 1 ≤ yh * v 2 ∧ v 0 ^ 2 + v 1 ^ 2 + v 2 ^ 2 ≤ 1} =
      ∫⁻ q in Set.Icc xl xh ×ˢ Set.Icc yl yh, ENNReal.ofReal ((Real.sqrt (1 + q.1 ^ 2 + q.2 ^ 2))⁻¹ ^ 3 / 3) := by
  obtain ⟨Q, hQ⟩ : ∃ Q : Set ((ℝ × ℝ) × ℝ), Q = {w | 0 < w.2 ∧ xl * w.2 ≤ w.1.1 ∧ w.1.1 ≤ xh * w.2 ∧ yl * w.2 ≤ w.1.2 ∧ w.1.2 ≤ yh * w.2 ∧
      w.1.1 ^ 2 + w.1.2 ^ 2 + w.2 ^ 2 ≤ 1} := ⟨_, rfl⟩
  have mQ : MeasurableSet Q := by
    have m0 : MeasurableSet {w : (ℝ × ℝ) × ℝ | 0 < w.2} := measurableSet_lt (f := fun _ : (ℝ × ℝ) × ℝ => (0 : ℝ)) measurable_const measurable_snd
    have m1 : MeasurableSet {w : (ℝ × ℝ) × ℝ | xl * w.2 ≤ w.1.1} := measurableSet_le (f := fun w : (ℝ × ℝ) × ℝ => xl * w.2) (g := fun w : (ℝ × ℝ) × ℝ => w.1.1) (by fun_prop) (by fun_prop)
    have m2 : MeasurableSet {w : (ℝ × ℝ) × ℝ | w.1.1 ≤ xh * w.2} := measurableSet_le (f := fun w : (ℝ × ℝ) × ℝ => w.1.1) (g := fun w : (ℝ × ℝ) × ℝ => xh * w.2) (by fun_prop) (by fun_prop)
    have m3 : MeasurableSet {w : (ℝ × ℝ) × ℝ | yl * w.2 ≤ w.1.2} := measurableSet_le (f := fun w : (ℝ × ℝ) × ℝ => yl * w.2) (g := fun w : (ℝ × ℝ) × ℝ => w.1.2) (by fun_prop) (by fun_prop)
    have m4 : MeasurableSet {w : (ℝ × ℝ) × ℝ | w.1.2 ≤ yh * w.2} := measurableSet_le (f := fun w : (ℝ × ℝ) × ℝ => w.1.2) (g := fun w : (ℝ × ℝ) × ℝ => yh * w.2) (by fun_prop) (by fun_prop)
    have m5 : MeasurableSet {w : (ℝ × ℝ) × ℝ | w.1.1 ^ 2 + w.1.2 ^ 2 + w.2 ^ 2 ≤ 1} :=
      measurableSet_le (f := fun w : (ℝ × ℝ) × ℝ => w.1.1 ^ 2 + w.1.2 ^ 2 + w.2 ^ 2) (by fun_prop) measurable_const
    rw [hQ]
    exact m0.inter (m1.inter (m2.inter (m3.inter (m4.inter m5))))
  have s1 : volume {v : Fin 3 → ℝ | 0 < v 2 ∧ xl * v 2 ≤ v 0 ∧ v 0 ≤ xh * v 2 ∧ yl * v 2 ≤ v 1 ∧ v 1 ≤ yh * v 2 ∧ v 0 ^ 2 + v 1 ^ 2 + v 2 ^ 2 ≤ 1} =
      ∫⁻ z : ℝ, volume {p : ℝ × ℝ | (p, z) ∈ Q} := by
    have e1 := volume_split mQ
    have e2 : ∫⁻ p : ℝ × ℝ, volume {z : ℝ | (p, z) ∈ Q} = ∫⁻ z : ℝ, volume {p : ℝ × ℝ | (p, z) ∈ Q} :=
      (Measure.prod_apply (μ := (volume : Measure (ℝ × ℝ))) (ν := (volume : Measure ℝ)) mQ).symm.trans
        (Measure.prod_apply_symm (μ := (volume : Measure (ℝ × ℝ))) (ν := (volume : Measure ℝ)) mQ)
    rw [← e2, ← e1, hQ]
    rfl
  obtain ⟨ind, hind⟩ : ∃ ind : ℝ → ℝ × ℝ → ENNReal, ind = fun z q => if z ^ 2 * (1 + q.1 ^ 2 + q.2 ^ 2) ≤ 1 then 1 else 0 := ⟨_, rfl⟩
  have mset : MeasurableSet {w : ℝ × (ℝ × ℝ) | w.1 ^ 2 * (1 + w.2.1 ^ 2 + w.2.2 ^ 2) ≤ 1} :=
    measurableSet_le (f := fun w : ℝ × (ℝ × ℝ) => w.1 ^ 2 * (1 + w.2.1 ^ 2 + w.2.2 ^ 2)) (by fun_prop) measurable_const
  have mind : Measurable fun w : ℝ × (ℝ × ℝ) => ind w.1 w.2 := by
    rw [hind]
    exact Measurable.ite mset measurable_const measurable_const
  have mR : MeasurableSet (Set.Icc xl xh ×ˢ Set.Icc yl yh) := measurableSet_Icc.prod measurableSet_Icc
  have s2 : ∀ z : ℝ, 0 < z → volume {p : ℝ × ℝ | (p, z) ∈ Q} = ∫⁻ q in Set.Icc xl xh ×ˢ Set.Icc yl yh, ENNReal.ofReal (z ^ 2) * ind z q := by
    intro z hz
    have e := Measure.addHaar_preimage_smul (volume : Measure (ℝ × ℝ)) hz.ne' {p : ℝ × ℝ | (p, z) ∈ Q}
    have fr : Module.finrank ℝ (ℝ × ℝ) = 2 := by simp
    rw [fr, abs_of_pos (by positivity), ENNReal.ofReal_inv_of_pos (by positivity)] at e
    have e' : volume {p : ℝ × ℝ | (p, z) ∈ Q} = ENNReal.ofReal (z ^ 2) * volume ((fun x : ℝ × ℝ => z • x) ⁻¹' {p : ℝ × ℝ | (p, z) ∈ Q}) := by
      rw [e, ← mul_assoc, ENNReal.mul_inv_cancel (by simp [hz.ne']) ENNReal.ofReal_ne_top, one_mul]
    have mz : Measurable fun q : ℝ × ℝ => ind z q := mind.comp ((measurable_const (a := z)).prodMk measurable_id)
    rw [e', lintegral_const_mul _ mz]
    congr 1
    have e3 : (fun x : ℝ × ℝ => z • x) ⁻¹' {p : ℝ × ℝ | (p, z) ∈ Q} = {q | z ^ 2 * (1 + q.1 ^ 2 + q.2 ^ 2) ≤ 1} ∩ (Set.Icc xl xh ×ˢ Set.Icc yl yh) := by
      rw [hQ]
      ext q
      simp only [Set.mem_preimage, Set.mem_ofPred_eq, Set.mem_inter_iff, Set.mem_prod, Set.mem_Icc, Prod.smul_fst, Prod.smul_snd, smul_eq_mul]
      constructor
      · rintro ⟨-, h1, h2, h3, h4, h5⟩
        exact ⟨by nlinarith, ⟨by nlinarith, by nlinarith⟩, by nlinarith, by nlinarith⟩
      · rintro ⟨h5, ⟨h1, h2⟩, h3, h4⟩
        exact ⟨hz, by nlinarith, by nlinarith, by nlinarith, by nlinarith, by nlinarith⟩
    have m6 : MeasurableSet {q : ℝ × ℝ | z ^ 2 * (1 + q.1 ^ 2 + q.2 ^ 2) ≤ 1} :=
      measurableSet_le (f := fun q : ℝ × ℝ => z ^ 2 * (1 + q.1 ^ 2 + q.2 ^ 2)) (by fun_prop) measurable_const
    rw [e3, ← Measure.restrict_apply m6, ← lintegral_indicator_one m6]
    refine lintegral_congr fun q => ?_
    rw [hind]
    simp only [Set.indicator, Set.mem_ofPred_eq, Pi.one_apply]
  have s3 : ∫⁻ z : ℝ, volume {p : ℝ × ℝ | (p, z) ∈ Q} =
      ∫⁻ z in Set.Ioi (0 : ℝ), ∫⁻ q in Set.Icc xl xh ×ˢ Set.Icc yl yh, ENNReal.ofReal (z ^ 2) * ind z q := by
    rw [← lintegral_indicator measurableSet_Ioi]
    refine lintegral_congr fun z => ?_
    by_cases hz : 0 < z
    · rw [Set.indicator_of_mem (show z ∈ Set.Ioi (0 : ℝ) from hz), s2 z hz]
    · rw [Set.indicator_of_notMem (show z ∉ Set.Ioi (0 : ℝ) from hz)]
      have : {p : ℝ × ℝ | (p, z) ∈ Q} = ∅ := by
        rw [hQ]
        ext q
        simp only [Set.mem_ofPred_eq, Set.mem_empty_iff_false, iff_false]
        exact fun h => hz h.1
      rw [this, measure_empty]
  rw [s1, s3, lintegral_lintegral_swap]
  · refine lintegral_congr fun q => ?_
    have τ0 : 0 < (Real.sqrt (1 + q.1 ^ 2 + q.2 ^ 2))⁻¹ := by positivity
    rw [← lintegral_sq τ0.le]
    rw [← lintegral_indicator measurableSet_Ioi, ← lintegral_indicator measurableSet_Ioc]
    refine lintegral_congr fun z => ?_
    have hS : 0 < 1 + q.1 ^ 2 + q.2 ^ 2 := by positivity
    by_cases hz : 0 < z
    · rw [Set.indicator_of_mem (show z ∈ Set.Ioi (0 : ℝ) from hz), hind]
      have iff : z ^ 2 * (1 + q.1 ^ 2 + q.2 ^ 2) ≤ 1 ↔ z ≤ (Real.sqrt (1 + q.1 ^ 2 + q.2 ^ 2))⁻¹ := by
        rw [← Real.sqrt_inv, Real.le_sqrt hz.le (by positivity), inv_eq_one_div, le_div_iff₀ hS]
      dsimp only
      by_cases hc : z ≤ (Real.sqrt (1 + q.1 ^ 2 + q.2 ^ 2))⁻¹
      · rw [if_pos (iff.2 hc), mul_one, Set.indicator_of_mem (show z ∈ Set.Ioc (0 : ℝ) _ from ⟨hz, hc⟩)]
      · rw [if_neg (fun h => hc (iff.1 h)), mul_zero, Set.indicator_of_notMem (fun h => hc h.2)]
    · rw [Set.indicator_of_notMem (show z ∉ Set.Ioi (0 : ℝ) from hz), Set.indicator_of_notMem (fun h => hz h.1)]
  · refine Measurable.aemeasurable ?_
    have : Measurable fun w : ℝ × (ℝ × ℝ) => ENNReal.ofReal (w.1 ^ 2) * ind w.1 w.2 :=
      (ENNReal.measurable_ofReal.comp (by fun_prop)).mul mind
    exact this

end Verif
