import Verif.Proofs.Sphere
import Mathlib.Analysis.SpecialFunctions.PolarCoord
import Mathlib.MeasureTheory.Measure.Lebesgue.VolumeOfBalls
import Mathlib.MeasureTheory.Measure.Lebesgue.EqHaar

/-!
# Areas on the unit sphere

The area of a region of the sphere is three times the volume of the part of the unit ball over it. Areas of lunes and triangles (Girard).
-/

namespace Verif
open Spec MeasureTheory

namespace Spec

/-- A triple of coordinates as a vector. -/
def vecOf (v : Fin 3 → ℝ) : Vec ℝ := ⟨v 0, v 1, v 2⟩

/-- The part of the unit ball in the set `S`. -/
def solid (S : Vec ℝ → Prop) : Set (Fin 3 → ℝ) := {v | S (vecOf v) ∧ dot (vecOf v) (vecOf v) ≤ 1}

/-- The area of the region of the unit sphere whose cone is `S` (a set closed under positive factors): three times the volume of the cone up to
the sphere, as in Mathlib's `Measure.toSphere`. -/
noncomputable def sphereArea (S : Vec ℝ → Prop) : ℝ := 3 * (volume (solid S)).toReal

end Spec

/-- Rotations and reflections keep volumes. -/
theorem volume_frame {e₁ e₂ e₃ : Vec ℝ} (h1 : UnitV e₁) (h2 : UnitV e₂) (h3 : UnitV e₃) (h12 : dot e₁ e₂ = 0) (h13 : dot e₁ e₃ = 0)
    (h23 : dot e₂ e₃ = 0) {Q : Set (Fin 3 → ℝ)} (hQ : MeasurableSet Q) :
    volume {v | ![dot e₁ (vecOf v), dot e₂ (vecOf v), dot e₃ (vecOf v)] ∈ Q} = volume Q := by
  obtain ⟨M, hM⟩ : ∃ M : Matrix (Fin 3) (Fin 3) ℝ, M = !![e₁.x, e₁.y, e₁.z; e₂.x, e₂.y, e₂.z; e₃.x, e₃.y, e₃.z] := ⟨_, rfl⟩
  have hMM : M * M.transpose = 1 := by
    unfold UnitV dot at *
    rw [hM]
    ext i j
    fin_cases i <;> fin_cases j <;> simp [Matrix.mul_apply, Fin.sum_univ_three] <;> linarith
  have hdet : M.det * M.det = 1 := by
    have := congrArg Matrix.det hMM
    rwa [Matrix.det_mul, Matrix.det_transpose, Matrix.det_one] at this
  have hd0 : M.det ≠ 0 := fun h => by rw [h] at hdet; norm_num at hdet
  have habs : |M.det⁻¹| = 1 := by
    rcases mul_self_eq_one_iff.1 hdet with h | h <;> rw [h] <;> norm_num
  have key := Real.map_matrix_volume_pi_eq_smul_volume_pi hd0
  rw [habs, ENNReal.ofReal_one, one_smul] at key
  have hf : Measurable (Matrix.toLin' M) := (LinearMap.continuous_of_finiteDimensional _).measurable
  conv_rhs => rw [← key, Measure.map_apply hf hQ]
  congr 1
  ext v
  have : Matrix.toLin' M v = ![dot e₁ (vecOf v), dot e₂ (vecOf v), dot e₃ (vecOf v)] := by
    rw [hM]
    ext i
    fin_cases i <;> simp [Matrix.toLin'_apply, Matrix.mulVec, dotProduct, Fin.sum_univ_three, dot, vecOf]
  simp [this]

/-- Splitting three coordinates. -/
theorem volume_split {Q : Set ((ℝ × ℝ) × ℝ)} (hQ : MeasurableSet Q) :
    volume {v : Fin 3 → ℝ | ((v 0, v 1), v 2) ∈ Q} = ∫⁻ p : ℝ × ℝ, volume {z : ℝ | (p, z) ∈ Q} := by
  have m1 := volume_preserving_piFinSuccAbove (fun _ : Fin 3 => ℝ) 2
  have m2 : MeasurePreserving (Prod.map (_root_.id : ℝ → ℝ) (MeasurableEquiv.finTwoArrow (α := ℝ))) :=
    (MeasurePreserving.id volume).prod (volume_preserving_finTwoArrow ℝ)
  have m3 := m2.comp m1
  have m4 : MeasurePreserving (Prod.swap : ℝ × (ℝ × ℝ) → (ℝ × ℝ) × ℝ) := Measure.measurePreserving_swap
  have m5 := m4.comp m3
  have e : {v : Fin 3 → ℝ | ((v 0, v 1), v 2) ∈ Q} = (Prod.swap ∘ (Prod.map (_root_.id : ℝ → ℝ) (MeasurableEquiv.finTwoArrow (α := ℝ)) ∘
      MeasurableEquiv.piFinSuccAbove (fun _ : Fin 3 => ℝ) 2)) ⁻¹' Q := by
    ext v
    rfl
  rw [e, m5.measure_preimage hQ.nullMeasurableSet, Measure.volume_eq_prod, Measure.prod_apply hQ]
  rfl

/-- The volume of a sector of the ball around the last axis is proportional to the measure of its angles. -/
theorem volume_sector : ∃ C : ENNReal, ∀ (J : Set ℝ) (T : Set (ℝ × ℝ)), MeasurableSet J → MeasurableSet T →
    (∀ r θ, 0 < r → -Real.pi < θ → θ < Real.pi → ((r * Real.cos θ, r * Real.sin θ) ∈ T ↔ θ ∈ J)) →
    volume {v : Fin 3 → ℝ | (v 0, v 1) ∈ T ∧ dot (vecOf v) (vecOf v) ≤ 1} = C * volume (J ∩ Set.Ioo (-Real.pi) Real.pi) := by
  obtain ⟨g, hg⟩ : ∃ g : ℝ → ENNReal, g = fun t => volume {z : ℝ | t + z * z ≤ 1} := ⟨_, rfl⟩
  have hgm : Measurable g := by
    rw [hg]
    have hS : MeasurableSet {p : ℝ × ℝ | p.1 + p.2 * p.2 ≤ 1} :=
      measurableSet_le (f := fun p : ℝ × ℝ => p.1 + p.2 * p.2) (by fun_prop) measurable_const
    exact measurable_measure_prodMk_left hS
  refine ⟨∫⁻ r in Set.Ioi (0 : ℝ), ENNReal.ofReal r * g (r * r), fun J T hJ hT h => ?_⟩
  have hQ : MeasurableSet {q : (ℝ × ℝ) × ℝ | q.1 ∈ T ∧ q.1.1 * q.1.1 + q.1.2 * q.1.2 + q.2 * q.2 ≤ 1} :=
    (measurable_fst hT).inter (measurableSet_le (f := fun q : (ℝ × ℝ) × ℝ => q.1.1 * q.1.1 + q.1.2 * q.1.2 + q.2 * q.2) (by fun_prop) measurable_const)
  have e := volume_split hQ
  have e1 : {v : Fin 3 → ℝ | (v 0, v 1) ∈ T ∧ dot (vecOf v) (vecOf v) ≤ 1} =
      {v : Fin 3 → ℝ | ((v 0, v 1), v 2) ∈ {q : (ℝ × ℝ) × ℝ | q.1 ∈ T ∧ q.1.1 * q.1.1 + q.1.2 * q.1.2 + q.2 * q.2 ≤ 1}} := rfl
  rw [e1, e, ← lintegral_comp_polarCoord_symm]
  have e2 : ∀ p ∈ polarCoord.target, ENNReal.ofReal p.1 • volume {z : ℝ | ((polarCoord.symm p), z) ∈ {q : (ℝ × ℝ) × ℝ | q.1 ∈ T ∧ q.1.1 * q.1.1 + q.1.2 * q.1.2 + q.2 * q.2 ≤ 1}} =
      (ENNReal.ofReal p.1 * g (p.1 * p.1)) * J.indicator 1 p.2 := by
    rintro ⟨r, θ⟩ ⟨hr, hθ⟩
    have hr' : 0 < r := hr
    have k := h r θ hr' hθ.1 hθ.2
    rw [polarCoord_symm_apply, smul_eq_mul]
    by_cases hj : θ ∈ J
    · have : {z : ℝ | ((r * Real.cos θ, r * Real.sin θ), z) ∈ {q : (ℝ × ℝ) × ℝ | q.1 ∈ T ∧ q.1.1 * q.1.1 + q.1.2 * q.1.2 + q.2 * q.2 ≤ 1}} =
          {z : ℝ | r * r + z * z ≤ 1} := by
        ext z
        have c : r * Real.cos θ * (r * Real.cos θ) + r * Real.sin θ * (r * Real.sin θ) = r * r := by
          have := Real.sin_sq_add_cos_sq θ
          linear_combination (r * r) * this
        simp only [Set.mem_ofPred_eq, c]
        exact ⟨fun h => h.2, fun h => ⟨k.2 hj, h⟩⟩
      dsimp only
      rw [this, Set.indicator_of_mem hj, hg]
      simp
    · have : {z : ℝ | ((r * Real.cos θ, r * Real.sin θ), z) ∈ {q : (ℝ × ℝ) × ℝ | q.1 ∈ T ∧ q.1.1 * q.1.1 + q.1.2 * q.1.2 + q.2 * q.2 ≤ 1}} = ∅ := by
        ext z
        simp only [Set.mem_ofPred_eq, Set.mem_empty_iff_false, iff_false]
        exact fun h => hj (k.1 h.1)
      dsimp only
      rw [this, Set.indicator_of_notMem hj]
      simp
  rw [setLIntegral_congr_fun polarCoord.open_target.measurableSet e2]
  have ht : polarCoord.target = Set.Ioi (0 : ℝ) ×ˢ Set.Ioo (-Real.pi) Real.pi := rfl
  rw [ht, Measure.volume_eq_prod, ← Measure.prod_restrict]
  rw [lintegral_prod_mul (f := fun r => ENNReal.ofReal r * g (r * r)) (g := J.indicator 1)]
  · congr 1
    rw [lintegral_indicator_one hJ, Measure.restrict_apply hJ]
  · exact (by fun_prop : Measurable fun r : ℝ => ENNReal.ofReal r * g (r * r)).aemeasurable
  · exact (measurable_one.indicator hJ).aemeasurable

/-- The volume of the unit ball. -/
theorem volume_unitBall : volume {v : Fin 3 → ℝ | dot (vecOf v) (vecOf v) ≤ 1} = ENNReal.ofReal (4 / 3 * Real.pi) := by
  have h := EuclideanSpace.volume_closedBall_fin_three (0 : EuclideanSpace ℝ (Fin 3)) 1
  have m := PiLp.volume_preserving_ofLp (Fin 3)
  have hm : MeasurableSet {v : Fin 3 → ℝ | dot (vecOf v) (vecOf v) ≤ 1} := by
    refine measurableSet_le ?_ measurable_const
    unfold dot vecOf
    fun_prop
  rw [← m.measure_preimage hm.nullMeasurableSet]
  have e : (@WithLp.ofLp 2 (Fin 3 → ℝ)) ⁻¹' {v : Fin 3 → ℝ | dot (vecOf v) (vecOf v) ≤ 1} = Metric.closedBall (0 : EuclideanSpace ℝ (Fin 3)) 1 := by
    ext v
    simp only [Set.mem_preimage, Set.mem_ofPred_eq, Metric.mem_closedBall, dist_zero_right, EuclideanSpace.norm_eq, Fin.sum_univ_three,
      Real.norm_eq_abs, sq_abs, dot, vecOf, ← pow_two]
    rw [Real.sqrt_le_left (by norm_num), one_pow]
  rw [e, h]
  simp
  congr 1
  ring

/-- The constant of `volume_sector`: a sector of angle `t` has volume `2/3 t`. -/
theorem sector_volume {J : Set ℝ} {T : Set (ℝ × ℝ)} (hJ : MeasurableSet J) (hT : MeasurableSet T)
    (h : ∀ r θ, 0 < r → -Real.pi < θ → θ < Real.pi → ((r * Real.cos θ, r * Real.sin θ) ∈ T ↔ θ ∈ J)) :
    volume {v : Fin 3 → ℝ | (v 0, v 1) ∈ T ∧ dot (vecOf v) (vecOf v) ≤ 1} =
      ENNReal.ofReal (2 / 3) * volume (J ∩ Set.Ioo (-Real.pi) Real.pi) := by
  obtain ⟨C, hC⟩ := volume_sector
  have h1 := hC Set.univ Set.univ MeasurableSet.univ MeasurableSet.univ (fun _ _ _ _ _ => by simp)
  simp only [Set.mem_univ, true_and, Set.univ_inter] at h1
  rw [volume_unitBall, Real.volume_Ioo] at h1
  have hc : C = ENNReal.ofReal (2 / 3) := by
    have h2 : ENNReal.ofReal (Real.pi - -Real.pi) ≠ 0 := by
      rw [ne_eq, ENNReal.ofReal_eq_zero, not_le]
      linarith [Real.pi_pos]
    have h3 : ENNReal.ofReal (2 / 3) * ENNReal.ofReal (Real.pi - -Real.pi) = ENNReal.ofReal (4 / 3 * Real.pi) := by
      rw [← ENNReal.ofReal_mul (by norm_num)]
      congr 1
      ring
    rw [← h3] at h1
    exact ((ENNReal.mul_left_inj h2 ENNReal.ofReal_ne_top).1 h1).symm
  rw [hC J T hJ hT h, hc]

theorem measurable_dot (n : Vec ℝ) : Measurable fun v : Fin 3 → ℝ => dot n (vecOf v) := by unfold dot vecOf; fun_prop

/-- The square of a vector in the frame of two perpendicular unit vectors. -/
theorem frame_square {n e : Vec ℝ} (hn : UnitV n) (he : UnitV e) (h : dot n e = 0) (v : Vec ℝ) :
    dot n v * dot n v + dot e v * dot e v + dot (cross n e) v * dot (cross n e) v = dot v v := by
  have k : dot (cross n e) v * dot (cross n e) v = dot n n * dot e e * dot v v + 2 * dot n e * dot e v * dot n v - dot n n * (dot e v * dot e v) -
      dot e e * (dot n v * dot n v) - dot v v * (dot n e * dot n e) := by
    simp only [dot, cross]; ring
  rw [k, hn, he, h]; ring

/-- The volume of a wedge of the ball between two planes. -/
theorem volume_wedge {n m : Vec ℝ} (hn : UnitV n) (hm : UnitV m) (h : -1 < dot n m) :
    volume (solid fun v => 0 ≤ dot n v ∧ 0 ≤ dot m v) = ENNReal.ofReal (2 / 3 * (Real.pi - ang n m)) := by
  obtain ⟨e, he, hne, hme⟩ := exists_dir hn hm
  obtain ⟨φ, hφ⟩ : ∃ φ, φ = ang n m := ⟨_, rfl⟩
  rw [← hφ] at hme ⊢
  have h0 : 0 ≤ φ := by rw [hφ]; exact ang_nonneg _ _
  have h1 : φ < Real.pi := by
    refine lt_of_le_of_ne (by rw [hφ]; exact ang_le_pi _ _) fun hp => ?_
    have := cos_ang hn hm
    rw [← hφ, hp, Real.cos_pi] at this
    linarith
  have hx : dot n (cross n e) = 0 := by simp only [dot, cross]; ring
  have hy : dot e (cross n e) = 0 := by simp only [dot, cross]; ring
  have hz : UnitV (cross n e) := by
    have : dot (cross n e) (cross n e) = dot n n * dot e e - dot n e ^ 2 := by simp only [dot, cross]; ring
    unfold UnitV
    rw [this, hn, he, hne]; norm_num
  obtain ⟨T, hT⟩ : ∃ T : Set (ℝ × ℝ), T = {p | 0 ≤ p.1 ∧ 0 ≤ Real.cos φ * p.1 + Real.sin φ * p.2} := ⟨_, rfl⟩
  have mT : MeasurableSet T := by
    rw [hT]
    exact (measurableSet_le measurable_const measurable_fst).inter
      (measurableSet_le (g := fun p : ℝ × ℝ => Real.cos φ * p.1 + Real.sin φ * p.2) measurable_const (by fun_prop))
  have mQ : MeasurableSet {w : Fin 3 → ℝ | (w 0, w 1) ∈ T ∧ dot (vecOf w) (vecOf w) ≤ 1} := by
    refine MeasurableSet.inter (s₁ := {w : Fin 3 → ℝ | (w 0, w 1) ∈ T}) ((by fun_prop : Measurable fun w : Fin 3 → ℝ => (w 0, w 1)) mT) ?_
    refine measurableSet_le (f := fun w : Fin 3 → ℝ => dot (vecOf w) (vecOf w)) ?_ measurable_const
    unfold dot vecOf
    fun_prop
  have fr := volume_frame hn he hz hne hx hy mQ
  have e1 : {v : Fin 3 → ℝ | ![dot n (vecOf v), dot e (vecOf v), dot (cross n e) (vecOf v)] ∈ {w : Fin 3 → ℝ | (w 0, w 1) ∈ T ∧ dot (vecOf w) (vecOf w) ≤ 1}} =
      solid fun v => 0 ≤ dot n v ∧ 0 ≤ dot m v := by
    ext v
    have k := frame_square hn he hne (vecOf v)
    have k2 : dot m (vecOf v) = Real.cos φ * dot n (vecOf v) + Real.sin φ * dot e (vecOf v) := by rw [hme, dot_lin]
    show ((dot n (vecOf v), dot e (vecOf v)) ∈ T ∧ dot n (vecOf v) * dot n (vecOf v) + dot e (vecOf v) * dot e (vecOf v) +
      dot (cross n e) (vecOf v) * dot (cross n e) (vecOf v) ≤ 1) ↔ ((0 ≤ dot n (vecOf v) ∧ 0 ≤ dot m (vecOf v)) ∧ dot (vecOf v) (vecOf v) ≤ 1)
    rw [k, k2, hT]
    rfl
  rw [e1] at fr
  have pp := Real.pi_pos
  have hJ : ∀ r θ, 0 < r → -Real.pi < θ → θ < Real.pi → ((r * Real.cos θ, r * Real.sin θ) ∈ T ↔ θ ∈ Set.Icc (φ - Real.pi / 2) (Real.pi / 2)) := by
    intro r θ hr t0 t1
    have c2 : Real.cos φ * (r * Real.cos θ) + Real.sin φ * (r * Real.sin θ) = r * Real.cos (θ - φ) := by rw [Real.cos_sub]; ring
    have hcos : 0 ≤ Real.cos θ ↔ -(Real.pi / 2) ≤ θ ∧ θ ≤ Real.pi / 2 := by
      constructor
      · intro hc
        constructor
        · by_contra hlt
          have := Real.cos_neg_of_pi_div_two_lt_of_lt (x := -θ) (by linarith) (by linarith)
          rw [Real.cos_neg] at this
          linarith
        · by_contra hlt
          have := Real.cos_neg_of_pi_div_two_lt_of_lt (x := θ) (by linarith) (by linarith)
          linarith
      · exact fun ⟨a, b⟩ => Real.cos_nonneg_of_neg_pi_div_two_le_of_le a b
    rw [hT]
    show (0 ≤ r * Real.cos θ ∧ 0 ≤ Real.cos φ * (r * Real.cos θ) + Real.sin φ * (r * Real.sin θ)) ↔ _
    rw [c2, mul_nonneg_iff_of_pos_left hr, mul_nonneg_iff_of_pos_left hr, hcos]
    constructor
    · rintro ⟨⟨a, b⟩, c⟩
      refine ⟨?_, b⟩
      by_contra hlt
      have := Real.cos_neg_of_pi_div_two_lt_of_lt (x := φ - θ) (by linarith) (by linarith)
      rw [← Real.cos_neg, neg_sub] at this
      linarith
    · rintro ⟨a, b⟩
      refine ⟨⟨by linarith, b⟩, ?_⟩
      exact Real.cos_nonneg_of_neg_pi_div_two_le_of_le (by linarith) (by linarith)
  have hsub : Set.Icc (φ - Real.pi / 2) (Real.pi / 2) ⊆ Set.Ioo (-Real.pi) Real.pi := fun t ht => ⟨by linarith [ht.1], by linarith [ht.2]⟩
  rw [fr, sector_volume measurableSet_Icc mT hJ, Set.inter_eq_left.2 hsub, Real.volume_Icc,
    ← ENNReal.ofReal_mul (by norm_num)]
  congr 1
  ring

theorem solid_finite (S : Vec ℝ → Prop) : volume (solid S) ≠ ⊤ := by
  refine ne_top_of_le_ne_top (b := volume {v : Fin 3 → ℝ | dot (vecOf v) (vecOf v) ≤ 1}) ?_ (measure_mono fun v hv => hv.2)
  rw [volume_unitBall]
  exact ENNReal.ofReal_ne_top

theorem measurable_solid {S : Vec ℝ → Prop} (h : MeasurableSet {v | S (vecOf v)}) : MeasurableSet (solid S) := by
  refine h.inter (measurableSet_le (f := fun w : Fin 3 → ℝ => dot (vecOf w) (vecOf w)) ?_ measurable_const)
  unfold dot vecOf
  fun_prop

/-- A set splits along a measurable condition. -/
theorem area_split (S P : Vec ℝ → Prop) (h : MeasurableSet {v | P (vecOf v)}) :
    sphereArea S = sphereArea (fun v => S v ∧ P v) + sphereArea (fun v => S v ∧ ¬ P v) := by
  unfold sphereArea
  have e := measure_inter_add_diff (μ := volume) (solid S) h
  have e1 : solid S ∩ {v | P (vecOf v)} = solid fun v => S v ∧ P v := by
    ext v
    constructor
    · rintro ⟨⟨h1, h2⟩, h3⟩; exact ⟨⟨h1, h3⟩, h2⟩
    · rintro ⟨⟨h1, h3⟩, h2⟩; exact ⟨⟨h1, h2⟩, h3⟩
  have e2 : solid S \ {v | P (vecOf v)} = solid fun v => S v ∧ ¬ P v := by
    ext v
    constructor
    · rintro ⟨⟨h1, h2⟩, h3⟩; exact ⟨⟨h1, h3⟩, h2⟩
    · rintro ⟨⟨h1, h3⟩, h2⟩; exact ⟨⟨h1, h2⟩, h3⟩
  rw [e1, e2] at e
  rw [← e, ENNReal.toReal_add (solid_finite _) (solid_finite _)]
  ring

/-- Planes have no volume. -/
theorem volume_plane {n : Vec ℝ} (hn : ¬ IsZero n) : volume {v : Fin 3 → ℝ | dot n (vecOf v) = 0} = 0 := by
  obtain ⟨f, hf⟩ : ∃ f : (Fin 3 → ℝ) →ₗ[ℝ] ℝ, ∀ v, f v = dot n (vecOf v) := by
    refine ⟨{ toFun := fun v => dot n (vecOf v), map_add' := ?_, map_smul' := ?_ }, fun v => rfl⟩
    · intro v w; simp only [dot, vecOf, Pi.add_apply]; ring
    · intro c v; simp only [dot, vecOf, Pi.smul_apply, smul_eq_mul, RingHom.id_apply]; ring
  have := Measure.addHaar_submodule (volume : Measure (Fin 3 → ℝ)) (LinearMap.ker f) (by
    intro h
    have h1 := LinearMap.ker_eq_top.1 h
    apply hn
    have k := fun v => hf v
    rw [h1] at k
    have k0 := k ![1, 0, 0]
    have k1 := k ![0, 1, 0]
    have k2 := k ![0, 0, 1]
    simp [dot, vecOf] at k0 k1 k2
    exact ⟨k0.symm, k1.symm, k2.symm⟩)
  have e : ((LinearMap.ker f : Submodule ℝ (Fin 3 → ℝ)) : Set (Fin 3 → ℝ)) = {v | dot n (vecOf v) = 0} := by
    ext v
    simp [LinearMap.mem_ker, hf]
  rwa [e] at this

/-- Sets that differ only on planes have the same area. -/
theorem area_congr {S T : Vec ℝ → Prop} {n₁ n₂ n₃ : Vec ℝ} (h1 : ¬ IsZero n₁) (h2 : ¬ IsZero n₂) (h3 : ¬ IsZero n₃)
    (h : ∀ v, dot n₁ v ≠ 0 → dot n₂ v ≠ 0 → dot n₃ v ≠ 0 → (S v ↔ T v)) : sphereArea S = sphereArea T := by
  unfold sphereArea
  congr 2
  refine measure_congr ?_
  have a1 : ∀ᵐ v : Fin 3 → ℝ, dot n₁ (vecOf v) ≠ 0 := by rw [ae_iff]; simpa using volume_plane h1
  have a2 : ∀ᵐ v : Fin 3 → ℝ, dot n₂ (vecOf v) ≠ 0 := by rw [ae_iff]; simpa using volume_plane h2
  have a3 : ∀ᵐ v : Fin 3 → ℝ, dot n₃ (vecOf v) ≠ 0 := by rw [ae_iff]; simpa using volume_plane h3
  filter_upwards [a1, a2, a3] with v k1 k2 k3
  have := h (vecOf v) k1 k2 k3
  apply propext
  show (S (vecOf v) ∧ _) ↔ (T (vecOf v) ∧ _)
  rw [this]

/-- The antipodal set has the same area. -/
theorem area_neg (S : Vec ℝ → Prop) : sphereArea (fun v => S (smul (-1) v)) = sphereArea S := by
  unfold sphereArea
  congr 2
  have := Measure.measure_preimage_neg (volume : Measure (Fin 3 → ℝ)) (solid S)
  rw [← this]
  congr 1
  ext v
  have e : smul (-1) (vecOf v) = vecOf (-v) := by simp [smul, vecOf]
  have e2 : dot (vecOf (-v)) (vecOf (-v)) = dot (vecOf v) (vecOf v) := by simp [dot, vecOf]
  show (S (smul (-1) (vecOf v)) ∧ dot (vecOf v) (vecOf v) ≤ 1) ↔ (S (vecOf (-v)) ∧ dot (vecOf (-v)) (vecOf (-v)) ≤ 1)
  rw [e, e2]

theorem area_total : sphereArea (fun _ => True) = 4 * Real.pi := by
  unfold sphereArea solid
  simp only [true_and]
  rw [volume_unitBall, ENNReal.toReal_ofReal (by positivity)]
  ring

/-- The area of a lune. -/
theorem area_lune {n m : Vec ℝ} (hn : UnitV n) (hm : UnitV m) (h : -1 < dot n m) :
    sphereArea (fun v => 0 ≤ dot n v ∧ 0 ≤ dot m v) = 2 * (Real.pi - ang n m) := by
  unfold sphereArea
  rw [volume_wedge hn hm h, ENNReal.toReal_ofReal]
  · ring
  · have := ang_le_pi n m
    linarith

theorem unit_nonzero {n : Vec ℝ} (h : UnitV n) : ¬ IsZero n := by
  rintro ⟨x, y, z⟩
  unfold UnitV dot at h
  rw [x, y, z] at h
  norm_num at h

theorem measurable_half (n : Vec ℝ) : MeasurableSet {v : Fin 3 → ℝ | 0 ≤ dot n (vecOf v)} := measurableSet_le measurable_const (measurable_dot n)

/-- Girard's theorem: the area of the triangle cut out by three half-spaces. -/
theorem area_triangle {n₁ n₂ n₃ : Vec ℝ} (u1 : UnitV n₁) (u2 : UnitV n₂) (u3 : UnitV n₃) (h12 : -1 < dot n₁ n₂) (h13 : -1 < dot n₁ n₃)
    (h23 : -1 < dot n₂ n₃) :
    sphereArea (fun v => 0 ≤ dot n₁ v ∧ 0 ≤ dot n₂ v ∧ 0 ≤ dot n₃ v) = (Real.pi - ang n₁ n₂) + (Real.pi - ang n₁ n₃) + (Real.pi - ang n₂ n₃) - Real.pi := by
  have z1 := unit_nonzero u1
  have z2 := unit_nonzero u2
  have z3 := unit_nonzero u3
  have ng : ∀ n v : Vec ℝ, dot n (smul (-1) v) = -dot n v := by intro n v; simp only [dot, smul]; ring
  have l12 := area_lune u1 u2 h12
  have l13 := area_lune u1 u3 h13
  have l23 := area_lune u2 u3 h23
  have s12 := area_split (fun v => 0 ≤ dot n₁ v ∧ 0 ≤ dot n₂ v) (fun v => 0 ≤ dot n₃ v) (measurable_half n₃)
  have s13 := area_split (fun v => 0 ≤ dot n₁ v ∧ 0 ≤ dot n₃ v) (fun v => 0 ≤ dot n₂ v) (measurable_half n₂)
  have s23 := area_split (fun v => 0 ≤ dot n₂ v ∧ 0 ≤ dot n₃ v) (fun v => 0 ≤ dot n₁ v) (measurable_half n₁)
  have t := area_split (fun _ => True) (fun v => 0 ≤ dot n₁ v) (measurable_half n₁)
  have t1 := area_split (fun v => 0 ≤ dot n₁ v) (fun v => 0 ≤ dot n₂ v) (measurable_half n₂)
  have t2 := area_split (fun v => 0 ≤ dot n₁ v ∧ ¬ 0 ≤ dot n₂ v) (fun v => 0 ≤ dot n₃ v) (measurable_half n₃)
  rw [area_total] at t
  have c1 : sphereArea (fun v => True ∧ ¬ 0 ≤ dot n₁ v) = sphereArea (fun v => 0 ≤ dot n₁ v) := by
    rw [← area_neg (fun v => 0 ≤ dot n₁ v)]
    refine area_congr z1 z2 z3 fun v k1 k2 k3 => ?_
    rw [ng]
    grind
  have c2 : sphereArea (fun v => True ∧ 0 ≤ dot n₁ v) = sphereArea (fun v => 0 ≤ dot n₁ v) := by simp only [true_and]
  have c3 : sphereArea (fun v => (0 ≤ dot n₁ v ∧ ¬ 0 ≤ dot n₂ v) ∧ ¬ 0 ≤ dot n₃ v) = sphereArea (fun v => (0 ≤ dot n₂ v ∧ 0 ≤ dot n₃ v) ∧ ¬ 0 ≤ dot n₁ v) := by
    rw [← area_neg (fun v => (0 ≤ dot n₂ v ∧ 0 ≤ dot n₃ v) ∧ ¬ 0 ≤ dot n₁ v)]
    refine area_congr z1 z2 z3 fun v k1 k2 k3 => ?_
    rw [ng, ng, ng]
    grind
  have c4 : sphereArea (fun v => (0 ≤ dot n₁ v ∧ ¬ 0 ≤ dot n₂ v) ∧ 0 ≤ dot n₃ v) = sphereArea (fun v => (0 ≤ dot n₁ v ∧ 0 ≤ dot n₃ v) ∧ ¬ 0 ≤ dot n₂ v) :=
    congrArg sphereArea (by funext v; apply propext; tauto)
  have c5 : sphereArea (fun v => (0 ≤ dot n₁ v ∧ 0 ≤ dot n₃ v) ∧ 0 ≤ dot n₂ v) = sphereArea (fun v => 0 ≤ dot n₁ v ∧ 0 ≤ dot n₂ v ∧ 0 ≤ dot n₃ v) :=
    congrArg sphereArea (by funext v; apply propext; tauto)
  have c6 : sphereArea (fun v => (0 ≤ dot n₂ v ∧ 0 ≤ dot n₃ v) ∧ 0 ≤ dot n₁ v) = sphereArea (fun v => 0 ≤ dot n₁ v ∧ 0 ≤ dot n₂ v ∧ 0 ≤ dot n₃ v) :=
    congrArg sphereArea (by funext v; apply propext; tauto)
  have c7 : sphereArea (fun v => (0 ≤ dot n₁ v ∧ 0 ≤ dot n₂ v) ∧ 0 ≤ dot n₃ v) = sphereArea (fun v => 0 ≤ dot n₁ v ∧ 0 ≤ dot n₂ v ∧ 0 ≤ dot n₃ v) :=
    congrArg sphereArea (by funext v; apply propext; tauto)
  have c8 : sphereArea (fun v => 0 ≤ dot n₁ v ∧ 0 ≤ dot n₂ v) = sphereArea (fun v => 0 ≤ dot n₁ v ∧ 0 ≤ dot n₂ v) := rfl
  rw [c7] at s12
  rw [c5] at s13
  rw [c6] at s23
  rw [c1, c2] at t
  rw [c3, c4] at t2
  linarith

end Verif
