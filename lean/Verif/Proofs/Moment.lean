import Verif.Properties.Area
import Mathlib.MeasureTheory.Integral.Prod
import Mathlib.Analysis.SpecialFunctions.Integrals.Basic

/-!
# The integral of the position over a triangle on the sphere
-/

namespace Verif
open Spec MeasureTheory

namespace Spec

/-- The integral of the position over the region of the unit sphere whose cone is `S`: in polar coordinates, four times the integral of the position
over the part of the unit ball in the cone (`∫ r * r^2 dr = 1/4`). -/
noncomputable def moment (S : Vec ℝ → Prop) : Vec ℝ :=
  ⟨4 * ∫ v in solid S, v 0, 4 * ∫ v in solid S, v 1, 4 * ∫ v in solid S, v 2⟩

end Spec

theorem integral_poly (β p q : ℝ) : ∫ x in p..q, (x + β) = (q ^ 2 / 2 + β * q) - (p ^ 2 / 2 + β * p) := by
  rw [intervalIntegral.integral_add (Continuous.intervalIntegrable (by fun_prop) _ _) (Continuous.intervalIntegrable (by fun_prop) _ _), integral_id,
    intervalIntegral.integral_const, smul_eq_mul]
  ring

/-- The integral along a line. -/
theorem line_integral (β γ : ℝ) : ∫ x in {x : ℝ | 0 ≤ x ∧ x ^ 2 + 2 * β * x + γ ≤ 1}, (x + β) = max (1 - γ) 0 / 2 := by
  have key : ∀ {p q : ℝ}, p ≤ q → {x : ℝ | 0 ≤ x ∧ x ^ 2 + 2 * β * x + γ ≤ 1} = Set.Icc p q →
      ∫ x in {x : ℝ | 0 ≤ x ∧ x ^ 2 + 2 * β * x + γ ≤ 1}, (x + β) = (q ^ 2 / 2 + β * q) - (p ^ 2 / 2 + β * p) := by
    intro p q h e
    rw [e, integral_Icc_eq_integral_Ioc, ← intervalIntegral.integral_of_le h, integral_poly]
  rcases le_or_gt γ 1 with hγ | hγ
  · obtain ⟨d, hd⟩ : ∃ d, d = Real.sqrt (β ^ 2 + (1 - γ)) := ⟨_, rfl⟩
    have d2 : d ^ 2 = β ^ 2 + (1 - γ) := by rw [hd]; exact Real.sq_sqrt (by nlinarith [sq_nonneg β])
    have d0 : 0 ≤ d := by rw [hd]; exact Real.sqrt_nonneg _
    have db : |β| ≤ d := abs_le_of_sq_le_sq (by linarith) d0
    obtain ⟨b1, b2⟩ := abs_le.1 db
    rw [key (p := 0) (q := -β + d) (by linarith), max_eq_left (by linarith)]
    · nlinarith
    · ext x
      simp only [Set.mem_ofPred_eq, Set.mem_Icc]
      constructor
      · rintro ⟨h1, h2⟩
        refine ⟨h1, ?_⟩
        have : (x + β) ^ 2 ≤ d ^ 2 := by rw [d2]; linarith
        linarith [(abs_le_of_sq_le_sq' this d0).2]
      · rintro ⟨h1, h2⟩
        refine ⟨h1, ?_⟩
        have : (x + β) ^ 2 ≤ d ^ 2 := sq_le_sq' (by linarith) (by linarith)
        rw [d2] at this
        linarith
  · rw [max_eq_right (by linarith), zero_div]
    by_cases hβ : 0 ≤ β ∨ β ^ 2 + (1 - γ) < 0
    · have : {x : ℝ | 0 ≤ x ∧ x ^ 2 + 2 * β * x + γ ≤ 1} = ∅ := by
        ext x
        simp only [Set.mem_ofPred_eq, Set.mem_empty_iff_false, iff_false, not_and, not_le]
        intro h
        rcases hβ with hb | hb
        · nlinarith [mul_nonneg hb h]
        · nlinarith [sq_nonneg (x + β)]
      rw [this, setIntegral_empty]
    · obtain ⟨hb, hD⟩ := not_or.1 hβ
      have hb := not_le.1 hb
      have hD := not_lt.1 hD
      obtain ⟨d, hd⟩ : ∃ d, d = Real.sqrt (β ^ 2 + (1 - γ)) := ⟨_, rfl⟩
      have d2 : d ^ 2 = β ^ 2 + (1 - γ) := by rw [hd]; exact Real.sq_sqrt hD
      have d0 : 0 ≤ d := by rw [hd]; exact Real.sqrt_nonneg _
      have db : d ≤ -β := abs_le_of_sq_le_sq' (by linarith [neg_sq β]) (by linarith) |>.2
      rw [key (p := -β - d) (q := -β + d) (by linarith)]
      · ring
      · ext x
        simp only [Set.mem_ofPred_eq, Set.mem_Icc]
        constructor
        · rintro ⟨h1, h2⟩
          have : (x + β) ^ 2 ≤ d ^ 2 := by rw [d2]; linarith
          obtain ⟨k1, k2⟩ := abs_le_of_sq_le_sq' this d0
          exact ⟨by linarith, by linarith⟩
        · rintro ⟨h1, h2⟩
          refine ⟨by linarith, ?_⟩
          have : (x + β) ^ 2 ≤ d ^ 2 := sq_le_sq' (by linarith) (by linarith)
          rw [d2] at this
          linarith

theorem radial_integral : ∫ r in Set.Ioi (0 : ℝ), r * (max (1 - r ^ 2) 0 / 2) = 1 / 8 := by
  have e : ∀ r ∈ Set.Ioi (0 : ℝ), r * (max (1 - r ^ 2) 0 / 2) = (Set.Ioc (0 : ℝ) 1).indicator (fun r => r / 2 - r ^ 3 / 2) r := by
    intro r hr
    have hr : 0 < r := hr
    by_cases h : r ≤ 1
    · rw [Set.indicator_of_mem (show r ∈ Set.Ioc (0 : ℝ) 1 from ⟨hr, h⟩), max_eq_left (by nlinarith)]
      ring
    · rw [Set.indicator_of_notMem (fun k => h k.2), max_eq_right (by nlinarith)]
      ring
  rw [setIntegral_congr_fun measurableSet_Ioi e, setIntegral_indicator measurableSet_Ioc, Set.inter_eq_right.2 (show Set.Ioc (0 : ℝ) 1 ⊆ Set.Ioi 0 from fun r h => h.1), ← intervalIntegral.integral_of_le (by norm_num),
    intervalIntegral.integral_sub (Continuous.intervalIntegrable (by fun_prop) _ _) (Continuous.intervalIntegrable (by fun_prop) _ _), intervalIntegral.integral_div,
    intervalIntegral.integral_div, integral_id, integral_pow]
  norm_num

/-- The integral over a sector. -/
theorem sector_integral {θ : ℝ} (h0 : 0 < θ) (h1 : θ < Real.pi) :
    ∫ p : ℝ × ℝ, (if 0 ≤ p.2 ∧ 0 ≤ Real.sin θ * p.1 - Real.cos θ * p.2 then max (1 - (p.1 ^ 2 + p.2 ^ 2)) 0 / 2 else 0) = θ / 8 := by
  rw [← integral_comp_polarCoord_symm]
  have e : ∀ p ∈ polarCoord.target, p.1 • (if 0 ≤ (polarCoord.symm p).2 ∧ 0 ≤ Real.sin θ * (polarCoord.symm p).1 - Real.cos θ * (polarCoord.symm p).2 then
      max (1 - ((polarCoord.symm p).1 ^ 2 + (polarCoord.symm p).2 ^ 2)) 0 / 2 else 0) = (p.1 * (max (1 - p.1 ^ 2) 0 / 2)) * (Set.Icc 0 θ).indicator 1 p.2 := by
    rintro ⟨r, φ⟩ ⟨hr, hφ⟩
    have hr : 0 < r := hr
    have p0 : -Real.pi < φ := hφ.1
    have p1 : φ < Real.pi := hφ.2
    rw [polarCoord_symm_apply]
    dsimp only
    have e1 : (r * Real.cos φ) ^ 2 + (r * Real.sin φ) ^ 2 = r ^ 2 := by
      have := Real.sin_sq_add_cos_sq φ
      linear_combination r ^ 2 * this
    have e2 : Real.sin θ * (r * Real.cos φ) - Real.cos θ * (r * Real.sin φ) = r * Real.sin (θ - φ) := by rw [Real.sin_sub]; ring
    rw [e1]
    have iff : (0 ≤ Real.sin φ ∧ 0 ≤ Real.sin (θ - φ)) ↔ φ ∈ Set.Icc 0 θ := by
      constructor
      · rintro ⟨a, b⟩
        have c : 0 ≤ φ := by
          by_contra h
          have := Real.sin_neg_of_neg_of_neg_pi_lt (not_le.1 h) p0
          linarith
        refine ⟨c, ?_⟩
        by_contra h
        have := Real.sin_neg_of_neg_of_neg_pi_lt (x := θ - φ) (by linarith [not_le.1 h]) (by linarith)
        linarith
      · rintro ⟨a, b⟩
        exact ⟨Real.sin_nonneg_of_nonneg_of_le_pi a p1.le, Real.sin_nonneg_of_nonneg_of_le_pi (by linarith) (by linarith)⟩
    have iff2 : (0 ≤ r * Real.sin φ ∧ 0 ≤ Real.sin θ * (r * Real.cos φ) - Real.cos θ * (r * Real.sin φ)) ↔ φ ∈ Set.Icc 0 θ := by
      rw [e2, mul_nonneg_iff_of_pos_left hr, mul_nonneg_iff_of_pos_left hr, iff]
    by_cases h : φ ∈ Set.Icc 0 θ
    · rw [if_pos (iff2.2 h), Set.indicator_of_mem h, smul_eq_mul]
      simp
    · rw [if_neg fun k => h (iff2.1 k), Set.indicator_of_notMem h, smul_zero, mul_zero]
  rw [setIntegral_congr_fun polarCoord.open_target.measurableSet e]
  have ht : polarCoord.target = Set.Ioi (0 : ℝ) ×ˢ Set.Ioo (-Real.pi) Real.pi := rfl
  rw [ht, Measure.volume_eq_prod, setIntegral_prod_mul (fun r : ℝ => r * (max (1 - r ^ 2) 0 / 2)) ((Set.Icc 0 θ).indicator (1 : ℝ → ℝ)), radial_integral]
  have : ∫ y in Set.Ioo (-Real.pi) Real.pi, (Set.Icc 0 θ).indicator (1 : ℝ → ℝ) y = θ := by
    rw [setIntegral_indicator measurableSet_Icc, Set.inter_eq_right.2 (show Set.Icc 0 θ ⊆ Set.Ioo (-Real.pi) Real.pi from fun t ht => ⟨by linarith [ht.1, Real.pi_pos], by linarith [ht.2]⟩)]
    simp [h0.le]
  rw [this]
  ring

/-- The integral over a sector in skew coordinates. -/
theorem skew_integral {k θ : ℝ} (h0 : 0 < θ) (h1 : θ < Real.pi) (hk : k = Real.cos θ) :
    ∫ w : Fin 2 → ℝ, (if 0 ≤ w 0 ∧ 0 ≤ w 1 then max (1 - (w 0 ^ 2 + 2 * k * w 0 * w 1 + w 1 ^ 2)) 0 / 2 else 0) = θ / (8 * Real.sin θ) := by
  obtain ⟨s, hs⟩ : ∃ s, s = Real.sin θ := ⟨_, rfl⟩
  have s0 : 0 < s := by rw [hs]; exact Real.sin_pos_of_pos_of_lt_pi h0 h1
  have sk : s ^ 2 + k ^ 2 = 1 := by rw [hs, hk]; exact Real.sin_sq_add_cos_sq θ
  obtain ⟨H, hH⟩ : ∃ H : ℝ × ℝ → ℝ, H = fun p => if 0 ≤ p.2 ∧ 0 ≤ Real.sin θ * p.1 - Real.cos θ * p.2 then max (1 - (p.1 ^ 2 + p.2 ^ 2)) 0 / 2 else 0 := ⟨_, rfl⟩
  have mH : Measurable H := by
    rw [hH]
    refine Measurable.ite ?_ (by fun_prop) measurable_const
    exact (measurableSet_le (f := fun _ : ℝ × ℝ => (0 : ℝ)) measurable_const measurable_snd).inter
      (measurableSet_le (f := fun _ : ℝ × ℝ => (0 : ℝ)) (g := fun p : ℝ × ℝ => Real.sin θ * p.1 - Real.cos θ * p.2) measurable_const (by fun_prop))
  obtain ⟨B, hB⟩ : ∃ B : Matrix (Fin 2) (Fin 2) ℝ, B = !![1, k; 0, s] := ⟨_, rfl⟩
  have dB : B.det = s := by rw [hB, Matrix.det_fin_two_of]; ring
  have key := Real.map_matrix_volume_pi_eq_smul_volume_pi (M := B) (by rw [dB]; exact s0.ne')
  have mB : Measurable (Matrix.toLin' B) := (LinearMap.continuous_of_finiteDimensional _).measurable
  have mG : Measurable fun w : Fin 2 → ℝ => H (w 0, w 1) := mH.comp (by fun_prop)
  have e1 := integral_map (μ := (volume : Measure (Fin 2 → ℝ))) mB.aemeasurable (f := fun w : Fin 2 → ℝ => H (w 0, w 1)) mG.aestronglyMeasurable
  rw [key, integral_smul_measure, dB, ENNReal.toReal_ofReal (abs_nonneg _), abs_of_pos (by positivity)] at e1
  have e2 : ∫ w : Fin 2 → ℝ, H (w 0, w 1) = θ / 8 := by
    rw [← sector_integral h0 h1, ← hH]
    exact (volume_preserving_finTwoArrow ℝ).integral_comp' H
  rw [e2] at e1
  have e3 : ∀ w : Fin 2 → ℝ, H (Matrix.toLin' B w 0, Matrix.toLin' B w 1) =
      if 0 ≤ w 0 ∧ 0 ≤ w 1 then max (1 - (w 0 ^ 2 + 2 * k * w 0 * w 1 + w 1 ^ 2)) 0 / 2 else 0 := by
    intro w
    have f0 : Matrix.toLin' B w 0 = w 0 + k * w 1 := by rw [hB]; simp [Matrix.toLin'_apply, Matrix.mulVec, dotProduct, Fin.sum_univ_two]
    have f1 : Matrix.toLin' B w 1 = s * w 1 := by rw [hB]; simp [Matrix.toLin'_apply, Matrix.mulVec, dotProduct, Fin.sum_univ_two]
    rw [f0, f1, hH]
    dsimp only
    have e : (w 0 + k * w 1) ^ 2 + (s * w 1) ^ 2 = w 0 ^ 2 + 2 * k * w 0 * w 1 + w 1 ^ 2 := by
      linear_combination (w 1) ^ 2 * sk
    rw [e]
    refine if_congr ?_ rfl rfl
    rw [← hs, ← hk, show s * (w 0 + k * w 1) - k * (s * w 1) = s * w 0 by ring, mul_nonneg_iff_of_pos_left s0, mul_nonneg_iff_of_pos_left s0, and_comm]
  rw [integral_congr_ae (Filter.Eventually.of_forall e3)] at e1
  rw [← e1, ← hs, smul_eq_mul]
  field_simp

/-! ## The cone over a triangle -/

theorem measurable_triangle {a b c : Vec ℝ} (hd : det a b c ≠ 0) : MeasurableSet {v : Fin 3 → ℝ | InTriangle a b c (vecOf v)} := by
  obtain ⟨σ, sD⟩ : ∃ σ : ℝ, 0 < σ * det a b c := by
    rcases lt_or_gt_of_ne hd with h | h
    · exact ⟨-1, by linarith⟩
    · exact ⟨1, by linarith⟩
  have e : {v : Fin 3 → ℝ | InTriangle a b c (vecOf v)} = {v | 0 ≤ dot (smul (σ * 1) (cross b c)) (vecOf v)} ∩ ({v | 0 ≤ dot (smul (σ * 1) (cross c a)) (vecOf v)} ∩
      {v | 0 ≤ dot (smul (σ * 1) (cross a b)) (vecOf v)}) := by
    ext v
    exact inTriangle_iff one_pos one_pos one_pos sD (vecOf v)
  rw [e]
  exact (measurable_half _).inter ((measurable_half _).inter (measurable_half _))

theorem dot_bound {a v : Vec ℝ} (ha : UnitV a) (hv : dot v v ≤ 1) : |dot a v| ≤ 1 := by
  have h : dot a a * dot v v - dot a v ^ 2 = dot (cross a v) (cross a v) := by simp only [dot, cross]; ring
  have h2 := dot_self_nonneg (cross a v)
  rw [ha, ← h, one_mul] at *
  exact abs_le_one_iff_mul_self_le_one.2 (by nlinarith)

theorem dot_integrable (a : Vec ℝ) (ha : UnitV a) {S : Vec ℝ → Prop} (hS : MeasurableSet {v | S (vecOf v)}) : IntegrableOn (fun v => dot a (vecOf v)) (solid S) := by
  refine Measure.integrableOn_of_bounded (M := 1) (solid_finite S) (measurable_dot a).aestronglyMeasurable ?_
  refine (ae_restrict_iff' (measurable_solid hS)).2 (Filter.Eventually.of_forall fun v hv => ?_)
  exact dot_bound ha hv.2

theorem solid_triangle {a b c : Vec ℝ} (ha : UnitV a) (hb : UnitV b) (hc : UnitV c) (hd : det a b c ≠ 0) :
    ∫ v in solid (InTriangle a b c), dot a (vecOf v) = |det a b c| * (ang b c / (8 * Real.sin (ang b c))) := by
  obtain ⟨-, hq, -, -⟩ := side_products ha hb hc hd
  have cosq := cos_ang hb hc
  have θ0 : 0 < ang b c := by
    refine lt_of_le_of_ne (ang_nonneg b c) fun h => ?_
    rw [← h, Real.cos_zero] at cosq
    rw [← cosq] at hq
    norm_num at hq
  have θ1 : ang b c < Real.pi := by
    refine lt_of_le_of_ne (ang_le_pi b c) fun h => ?_
    rw [h, Real.cos_pi] at cosq
    rw [← cosq] at hq
    norm_num at hq
  have sk := skew_integral θ0 θ1 cosq.symm
  obtain ⟨S, hS⟩ : ∃ S, S = InTriangle a b c := ⟨_, rfl⟩
  have mS : MeasurableSet {v | S (vecOf v)} := by rw [hS]; exact measurable_triangle hd
  obtain ⟨f, hf⟩ : ∃ f : (Fin 3 → ℝ) → ℝ, f = (solid S).indicator fun v => dot a (vecOf v) := ⟨_, rfl⟩
  have intf : Integrable f := by rw [hf]; exact (dot_integrable a ha mS).integrable_indicator (measurable_solid mS)
  obtain ⟨A, hA⟩ : ∃ A : Matrix (Fin 3) (Fin 3) ℝ, A = !![a.x, b.x, c.x; a.y, b.y, c.y; a.z, b.z, c.z] := ⟨_, rfl⟩
  have dA : A.det = det a b c := by
    rw [hA, Matrix.det_fin_three]
    simp only [Matrix.of_apply, Matrix.cons_val', Matrix.cons_val_zero, Matrix.cons_val_one, Matrix.cons_val, Matrix.cons_val_fin_one, det, dot, cross]
    ring
  have key := Real.map_matrix_volume_pi_eq_smul_volume_pi (M := A) (by rw [dA]; exact hd)
  have mA : Measurable (Matrix.toLin' A) := (LinearMap.continuous_of_finiteDimensional _).measurable
  have intm : Integrable f (Measure.map (Matrix.toLin' A) volume) := by rw [key]; exact intf.smul_measure ENNReal.ofReal_ne_top
  have e1 := integral_map (μ := (volume : Measure (Fin 3 → ℝ))) mA.aemeasurable (f := f) intm.aestronglyMeasurable
  have int2 : Integrable (fun w => f (Matrix.toLin' A w)) := (integrable_map_measure intm.aestronglyMeasurable mA.aemeasurable).1 intm
  rw [key, integral_smul_measure, dA, ENNReal.toReal_ofReal (abs_nonneg _)] at e1
  have e0 : ∫ v in solid (InTriangle a b c), dot a (vecOf v) = ∫ v, f v := by
    rw [hf, integral_indicator (measurable_solid mS), hS]
  have val : ∀ w : Fin 3 → ℝ, vecOf (Matrix.toLin' A w) = ⟨w 0 * a.x + w 1 * b.x + w 2 * c.x, w 0 * a.y + w 1 * b.y + w 2 * c.y, w 0 * a.z + w 1 * b.z + w 2 * c.z⟩ := by
    intro w
    rw [hA]
    simp only [vecOf, Matrix.toLin'_apply, Matrix.mulVec, dotProduct, Fin.sum_univ_three, Matrix.of_apply, Matrix.cons_val', Matrix.cons_val_zero, Matrix.cons_val_one, Matrix.cons_val,
      Matrix.cons_val_fin_one]
    refine vec_eq ?_ ?_ ?_ <;> (dsimp only; ring)
  have fw : ∀ w : Fin 3 → ℝ, f (Matrix.toLin' A w) = if 0 ≤ w 1 ∧ 0 ≤ w 2 then
      ({x : ℝ | 0 ≤ x ∧ x ^ 2 + 2 * (w 1 * dot a b + w 2 * dot c a) * x + (w 1 ^ 2 + 2 * dot b c * w 1 * w 2 + w 2 ^ 2) ≤ 1}).indicator
        (fun x => x + (w 1 * dot a b + w 2 * dot c a)) (w 0) else 0 := by
    intro w
    have n2 : dot (vecOf (Matrix.toLin' A w)) (vecOf (Matrix.toLin' A w)) =
        w 0 ^ 2 + 2 * (w 1 * dot a b + w 2 * dot c a) * w 0 + (w 1 ^ 2 + 2 * dot b c * w 1 * w 2 + w 2 ^ 2) := by
      rw [val]
      unfold UnitV dot at *
      dsimp only
      linear_combination w 0 ^ 2 * ha + w 1 ^ 2 * hb + w 2 ^ 2 * hc
    have n1 : dot a (vecOf (Matrix.toLin' A w)) = w 0 + (w 1 * dot a b + w 2 * dot c a) := by
      rw [val]
      unfold UnitV dot at *
      dsimp only
      linear_combination w 0 * ha
    have mem : Matrix.toLin' A w ∈ solid S ↔ (0 ≤ w 1 ∧ 0 ≤ w 2) ∧
        w 0 ∈ {x : ℝ | 0 ≤ x ∧ x ^ 2 + 2 * (w 1 * dot a b + w 2 * dot c a) * x + (w 1 ^ 2 + 2 * dot b c * w 1 * w 2 + w 2 ^ 2) ≤ 1} := by
      have tri : InTriangle a b c (vecOf (Matrix.toLin' A w)) ↔ 0 ≤ w 0 ∧ 0 ≤ w 1 ∧ 0 ≤ w 2 := by
        rw [val]
        constructor
        · rintro ⟨x, y, z, x0, y0, z0, e⟩
          obtain ⟨ex, ey, ez⟩ := Vec.mk.injEq .. ▸ e
          have u : ∀ n : Vec ℝ, (w 0 - x) * dot n a + (w 1 - y) * dot n b + (w 2 - z) * dot n c = 0 := by
            intro n
            unfold dot
            linear_combination n.x * ex + n.y * ey + n.z * ez
          have k1 : dot (cross b c) b = 0 := by simp only [dot, cross]; ring
          have k2 : dot (cross b c) c = 0 := by simp only [dot, cross]; ring
          have k3 : dot (cross c a) c = 0 := by simp only [dot, cross]; ring
          have k4 : dot (cross c a) a = 0 := by simp only [dot, cross]; ring
          have k5 : dot (cross a b) a = 0 := by simp only [dot, cross]; ring
          have k6 : dot (cross a b) b = 0 := by simp only [dot, cross]; ring
          have d1 : dot (cross b c) a = det a b c := by simp only [det, dot, cross]; ring
          have d2 : dot (cross c a) b = det a b c := by simp only [det, dot, cross]; ring
          have d3 : dot (cross a b) c = det a b c := by simp only [det, dot, cross]
          have u1 := u (cross b c)
          have u2 := u (cross c a)
          have u3 := u (cross a b)
          rw [k1, k2, d1, mul_zero, mul_zero, add_zero, add_zero] at u1
          rw [k3, k4, d2, mul_zero, mul_zero, add_zero, zero_add] at u2
          rw [k5, k6, d3, mul_zero, mul_zero, zero_add, zero_add] at u3
          have z1 := (mul_eq_zero.1 u1).resolve_right hd
          have z2 := (mul_eq_zero.1 u2).resolve_right hd
          have z3 := (mul_eq_zero.1 u3).resolve_right hd
          exact ⟨by linarith, by linarith, by linarith⟩
        · rintro ⟨x0, y0, z0⟩
          exact ⟨_, _, _, x0, y0, z0, rfl⟩
      rw [hS]
      show (InTriangle a b c (vecOf (Matrix.toLin' A w)) ∧ dot (vecOf (Matrix.toLin' A w)) (vecOf (Matrix.toLin' A w)) ≤ 1) ↔ _
      rw [tri, n2]
      show _ ↔ (0 ≤ w 1 ∧ 0 ≤ w 2) ∧ (0 ≤ w 0 ∧ _)
      tauto
    rw [hf]
    by_cases h : 0 ≤ w 1 ∧ 0 ≤ w 2
    · rw [if_pos h]
      by_cases h2 : w 0 ∈ {x : ℝ | 0 ≤ x ∧ x ^ 2 + 2 * (w 1 * dot a b + w 2 * dot c a) * x + (w 1 ^ 2 + 2 * dot b c * w 1 * w 2 + w 2 ^ 2) ≤ 1}
      · rw [Set.indicator_of_mem (mem.2 ⟨h, h2⟩), Set.indicator_of_mem h2, n1]
      · rw [Set.indicator_of_notMem fun k => h2 (mem.1 k).2, Set.indicator_of_notMem h2]
    · rw [if_neg h, Set.indicator_of_notMem fun k => h (mem.1 k).1]
  -- the first coordinate first
  have mp := volume_preserving_piFinSuccAbove (fun _ : Fin 3 => ℝ) 0
  have e2 : ∫ w : Fin 3 → ℝ, f (Matrix.toLin' A w) = ∫ q : Fin 2 → ℝ, ∫ x : ℝ, f (Matrix.toLin' A (Fin.cons x q)) := by
    have s1 := mp.symm.integral_comp' (fun w => f (Matrix.toLin' A w))
    have s2 : Integrable (fun p : ℝ × (Fin 2 → ℝ) => f (Matrix.toLin' A ((MeasurableEquiv.piFinSuccAbove (fun _ : Fin 3 => ℝ) 0).symm p))) (volume.prod volume) :=
      (mp.symm.integrable_comp_emb (MeasurableEquiv.measurableEmbedding _)).2 int2
    rw [← s1]
    exact integral_prod_symm _ s2
  have e3 : ∀ q : Fin 2 → ℝ, ∫ x : ℝ, f (Matrix.toLin' A (Fin.cons x q)) =
      if 0 ≤ q 0 ∧ 0 ≤ q 1 then max (1 - (q 0 ^ 2 + 2 * dot b c * q 0 * q 1 + q 1 ^ 2)) 0 / 2 else 0 := by
    intro q
    have e : ∀ x : ℝ, f (Matrix.toLin' A (Fin.cons x q)) = if 0 ≤ q 0 ∧ 0 ≤ q 1 then
        ({x : ℝ | 0 ≤ x ∧ x ^ 2 + 2 * (q 0 * dot a b + q 1 * dot c a) * x + (q 0 ^ 2 + 2 * dot b c * q 0 * q 1 + q 1 ^ 2) ≤ 1}).indicator
          (fun x => x + (q 0 * dot a b + q 1 * dot c a)) x else 0 := fun x => fw _
    simp_rw [e]
    by_cases h : 0 ≤ q 0 ∧ 0 ≤ q 1
    · simp only [if_pos h]
      rw [integral_indicator, line_integral]
      have m1 : MeasurableSet {x : ℝ | 0 ≤ x} := measurableSet_le measurable_const measurable_id
      have m2 : MeasurableSet {x : ℝ | x ^ 2 + 2 * (q 0 * dot a b + q 1 * dot c a) * x + (q 0 ^ 2 + 2 * dot b c * q 0 * q 1 + q 1 ^ 2) ≤ 1} :=
        measurableSet_le (by fun_prop) measurable_const
      exact m1.inter m2
    · simp only [if_neg h, integral_zero]
  rw [e2, integral_congr_ae (Filter.Eventually.of_forall e3), sk] at e1
  rw [e0, ← e1, abs_inv, smul_eq_mul, ← mul_assoc, mul_inv_cancel₀ (abs_ne_zero.2 hd), one_mul]

/-- The scalar products of the moment of a triangle with its corners. -/
theorem moment_dot {a : Vec ℝ} (ha : UnitV a) {S : Vec ℝ → Prop} (hS : MeasurableSet {v | S (vecOf v)}) : dot a (moment S) = 4 * ∫ v in solid S, dot a (vecOf v) := by
  have i0 : IntegrableOn (fun v : Fin 3 → ℝ => v 0) (solid S) := by
    have := dot_integrable ⟨1, 0, 0⟩ (by norm_num [UnitV, dot]) hS
    refine this.congr (Filter.Eventually.of_forall fun v => ?_)
    simp [dot, vecOf]
  have i1 : IntegrableOn (fun v : Fin 3 → ℝ => v 1) (solid S) := by
    have := dot_integrable ⟨0, 1, 0⟩ (by norm_num [UnitV, dot]) hS
    refine this.congr (Filter.Eventually.of_forall fun v => ?_)
    simp [dot, vecOf]
  have i2 : IntegrableOn (fun v : Fin 3 → ℝ => v 2) (solid S) := by
    have := dot_integrable ⟨0, 0, 1⟩ (by norm_num [UnitV, dot]) hS
    refine this.congr (Filter.Eventually.of_forall fun v => ?_)
    simp [dot, vecOf]
  have e : ∫ v in solid S, dot a (vecOf v) = a.x * (∫ v in solid S, v 0) + a.y * (∫ v in solid S, v 1) + a.z * ∫ v in solid S, v 2 := by
    unfold dot vecOf
    dsimp only
    have s1 := integral_add (f := fun v : Fin 3 → ℝ => a.x * v 0 + a.y * v 1) ((i0.const_mul a.x).add (i1.const_mul a.y)) (i2.const_mul a.z)
    rw [s1, integral_add (i0.const_mul _) (i1.const_mul _), integral_const_mul, integral_const_mul, integral_const_mul]
  rw [e]
  unfold moment dot
  dsimp only
  ring

end Verif
