import Verif.Proofs.LatEdges
import Verif.Properties.S1Hausdorff
import Verif.Properties.Area

/-!
# The Hausdorff distance of latitude-longitude rectangles: C110

In exact arithmetic. The longitudes are reduced to one difference by C70; the latitudes are in `Verif/Proofs/LatEdges.lean`.
-/

namespace Verif.S1
open Spec Interval
variable {K : Type} [Field K] [LinearOrder K] [IsStrictOrderedRing K] {π : K}

set_option maxHeartbeats 1000000 in
/-- The directed Hausdorff distance of arcs is attained at a point of the first arc. -/
theorem hausdorff_attained (hπ : 0 < π) {i y : Interval K} (hi : Ok π i) (hy : Ok π y) (he : ¬ (y.lo = π ∧ y.hi = -π)) (hie : ¬ (i.lo = π ∧ i.hi = -π)) :
    ∃ p, -π < p ∧ p ≤ π ∧ Mem π i p ∧ ∀ D', 0 ≤ D' → (Mem π y p ∨ positiveDistance π _root_.id y.hi p ≤ D' ∨ positiveDistance π _root_.id p y.lo ≤ D') →
      i.directedHausdorffDistance π _root_.id y ≤ D' := by
  have hv := hausdorff_val hπ hi hy he
  generalize i.directedHausdorffDistance π _root_.id y = D at *
  have any : ∃ p, -π < p ∧ p ≤ π ∧ Mem π i p := by
    obtain ⟨a, b, c, d, e, f⟩ := hi
    refine ⟨i.hi, by grind, d, ?_⟩
    rw [mem_iff]
    grind
  rcases hv with ⟨hc, rfl⟩ | ⟨_, hf, c, rfl, hv⟩
  · obtain ⟨p, p1, p2, p3⟩ := any
    exact ⟨p, p1, p2, p3, fun D' h _ => h⟩
  have hc := complementCenter_cases hπ hy he hf
  generalize y.complementCenter π _root_.id = c at *
  rcases hv with ⟨hm, rfl⟩ | ⟨hm, i1, i2, A, B, rfl, hA, hB⟩
  · refine ⟨c, hc.1, hc.2.1, hm, fun D' hD h1 => ?_⟩
    clear hi
    have d1 := pd_cases (π := π) y.hi c
    have d2 := pd_cases (π := π) c y.lo
    generalize positiveDistance π _root_.id y.hi c = P1 at *
    generalize positiveDistance π _root_.id c y.lo = P2 at *
    rw [mem_iff] at *
    obtain ⟨a', b', c', d', e', f'⟩ := hy
    grind
  · rcases le_total B A with hBA | hBA
    · rw [max_eq_left hBA]
      refine ⟨i.hi, i2, hi.hi2, by rw [mem_iff]; grind, fun D' hD h2 => ?_⟩
      clear hB hBA
      have d1 := pd_cases (π := π) y.hi i.hi
      have d2 := pd_cases (π := π) i.hi y.lo
      generalize positiveDistance π _root_.id y.hi i.hi = P1 at *
      generalize positiveDistance π _root_.id i.hi y.lo = P2 at *
      rw [mem_iff] at *
      obtain ⟨a, b, c, d, e, f⟩ := hi
      obtain ⟨a', b', c', d', e', f'⟩ := hy
      grind (splits := 20)
    · rw [max_eq_right hBA]
      refine ⟨i.lo, i1, hi.lo2, by rw [mem_iff]; grind, fun D' hD h2 => ?_⟩
      clear hA hBA
      have d1 := pd_cases (π := π) y.hi i.lo
      have d2 := pd_cases (π := π) i.lo y.lo
      generalize positiveDistance π _root_.id y.hi i.lo = P1 at *
      generalize positiveDistance π _root_.id i.lo y.lo = P2 at *
      rw [mem_iff] at *
      obtain ⟨a, b, c, d, e, f⟩ := hi
      obtain ⟨a', b', c', d', e', f'⟩ := hy
      grind (splits := 20)

end Verif.S1

namespace Verif
open Spec S2

/-- A turn of at most a half circle between two directions. -/
theorem exists_turn (p q : ℝ) : ∃ d, |d| ≤ Real.pi ∧ SameDir Real.pi (q + d) p ∧ Real.cos (p - q) = Real.cos |d| := by
  obtain ⟨rem, hr⟩ := exists_rem_real
  obtain ⟨h1, k, hk⟩ := hr (p - q)
  refine ⟨rem (p - q), h1, ⟨-k, by rw [hk]; push_cast; ring⟩, ?_⟩
  rw [Real.cos_abs, hk, show p - q + 2 * Real.pi * k = p - q + k * (2 * Real.pi) by ring, Real.cos_add_int_mul_two_pi]

/-- The longitudes: every longitude of the first arc has one of the second at most the Hausdorff distance away, and some has none nearer. -/
theorem lng_hausdorff {i y : S1.Interval ℝ} (hi : i.isValid Real.pi = true) (hy : y.isValid Real.pi = true) (ie : i.isEmpty Real.pi = false)
    (ye : y.isEmpty Real.pi = false) {D : ℝ} (hD : D = i.directedHausdorffDistance Real.pi _root_.id y) :
    0 ≤ D ∧ D ≤ Real.pi ∧ (∀ p, S1.Pts Real.pi i p → ∃ q, S1.Pts Real.pi y q ∧ Real.cos D ≤ Real.cos (p - q)) ∧
    (∃ p, S1.Pts Real.pi i p ∧ ∀ q, S1.Pts Real.pi y q → Real.cos (p - q) ≤ Real.cos D) ∧
    (y.containsInterval Real.pi i = true → D = 0) := by
  have hp := Real.pi_pos
  obtain ⟨h0, h1, h2⟩ := S1.c70_hausdorff hp hi hy ye
  have ye' := ye
  have ie' := ie
  rw [← Bool.not_eq_true, S1.isEmpty_iff] at ye' ie'
  have oi := S1.isValid_iff.1 hi
  have oy := S1.isValid_iff.1 hy
  rw [← hD] at h0 h1 h2
  have cosnear : ∀ {a b : ℝ}, |a| ≤ b → b ≤ Real.pi → Real.cos b ≤ Real.cos a := fun h1 h2 => by
    have := Real.cos_le_cos_of_nonneg_of_le_pi (abs_nonneg _) h2 h1
    rwa [Real.cos_abs] at this
  obtain ⟨q0, hq0⟩ : ∃ q, S1.Pts Real.pi y q := by
    by_contra hcon
    push Not at hcon
    have := (S1.c50_isEmpty_isFull hp hy).1.2 hcon
    rw [this] at ye
    cases ye
  have hle : D ≤ Real.pi := by
    refine h2 _ hp.le fun p _ => ?_
    obtain ⟨d, d1, d2, _⟩ := exists_turn p q0
    exact ⟨q0, d, hq0, d1, d2⟩
  refine ⟨h0, hle, fun p hp' => ?_, ?_, fun hc => ?_⟩
  · obtain ⟨q, d, hq, hd, k, hk⟩ := h1 p hp'
    refine ⟨q, hq, ?_⟩
    rw [hk, show q + d + 2 * Real.pi * k - q = d + k * (2 * Real.pi) by ring, Real.cos_add_int_mul_two_pi]
    exact cosnear hd hle
  · obtain ⟨p, p1, p2, p3, p4⟩ := S1.hausdorff_attained hp oi oy ye' ie'
    refine ⟨p, (S1.pts_of hp oi p1 p2).2 p3, fun q hq => ?_⟩
    rw [← hD] at p4
    obtain ⟨d, d1, d2, d3⟩ := exists_turn p q
    rw [d3]
    refine Real.cos_le_cos_of_nonneg_of_le_pi h0 d1 ?_
    by_cases hf : y.lo = -Real.pi ∧ y.hi = Real.pi
    · refine p4 _ (abs_nonneg _) (Or.inl ?_)
      rw [S1.mem_iff]
      grind
    · exact p4 _ (abs_nonneg _) ((S1.near_mem hp oy ye' hf (abs_nonneg _) p1 p2).1 ⟨q, d, hq, le_rfl, d2⟩)
  · rw [hD]
    unfold S1.Interval.directedHausdorffDistance
    rw [if_pos hc]

/-- A possible value of the Hausdorff distance of pieces of meridians: not less than the distance of some point of the first piece. -/
def Cand (k alo ahi blo bhi D : ℝ) : Prop :=
  0 ≤ D ∧ D ≤ Real.pi ∧ ∃ φ, alo ≤ φ ∧ φ ≤ ahi ∧ ∀ ψ, blo ≤ ψ → ψ ≤ bhi → gd k φ ψ ≤ Real.cos D

theorem cand_max {k alo ahi blo bhi D E : ℝ} (h : Cand k alo ahi blo bhi D) (h' : Cand k alo ahi blo bhi E) : Cand k alo ahi blo bhi (max D E) := by
  rcases max_choice D E with e | e <;> rw [e] <;> assumption

theorem dot_gd (φ ψ δ : ℝ) : dot (direction φ 0) (direction ψ δ) = gd (Real.cos δ) φ ψ := by
  rw [dot_direction, zero_sub, Real.cos_neg]
  unfold gd
  ring

theorem ang_gd (φ ψ δ : ℝ) : Real.cos (ang (direction φ 0) (direction ψ δ)) = gd (Real.cos δ) φ ψ := by
  rw [cos_ang (unit_direction _ _) (unit_direction _ _), dot_gd]

/-- The distance of a point from a piece of a meridian. -/
theorem segment_cand {φ blo bhi δ : ℝ} (b1 : -(Real.pi / 2) ≤ blo) (b2 : blo ≤ bhi) (b3 : bhi ≤ Real.pi / 2) (b4 : bhi - blo < Real.pi) {D : ℝ}
    (hD : D = EdgeUtil.distanceFromSegment _root_.id Real.sqrt Real.arcsin (direction φ 0) (direction blo δ) (direction bhi δ)) :
    0 ≤ D ∧ D ≤ Real.pi ∧ (∀ ψ, blo ≤ ψ → ψ ≤ bhi → gd (Real.cos δ) φ ψ ≤ Real.cos D) ∧ ∃ ψ, blo ≤ ψ ∧ ψ ≤ bhi ∧ Real.cos D = gd (Real.cos δ) φ ψ := by
  have hna : direction bhi δ ≠ smul (-1) (direction blo δ) := by
    intro hcon
    have h1 := dot_direction blo δ bhi δ
    rw [hcon, sub_self, Real.cos_zero] at h1
    have h2 : dot (direction blo δ) (smul (-1) (direction blo δ)) = -1 := by
      have := unit_direction blo δ
      simp only [UnitV, dot, smul] at this ⊢
      linear_combination -this
    rw [h2] at h1
    have h3 : Real.cos (bhi - blo) = -1 := by rw [Real.cos_sub, h1]; ring
    have h5 := Real.cos_lt_cos_of_nonneg_of_le_pi (x := bhi - blo) (y := Real.pi) (by linarith) le_rfl b4
    rw [Real.cos_pi, h3] at h5
    exact lt_irrefl _ h5
  obtain ⟨⟨p, hpE, hpd⟩, hmin⟩ := c82_distance (unit_direction blo δ) (unit_direction bhi δ) (unit_direction φ 0) hna
  rw [← hD] at hpd hmin
  obtain ⟨ψ₀, f1, f2, rfl⟩ := (onEdge_meridian b1 b2 b3 b4 p).1 hpE
  have D0 : 0 ≤ D := by rw [hpd]; exact ang_nonneg _ _
  have D1 : D ≤ Real.pi := by rw [hpd]; exact ang_le_pi _ _
  refine ⟨D0, D1, fun ψ h1 h2 => ?_, ψ₀, f1, f2, by rw [hpd, ang_gd]⟩
  have := hmin ⟨_, (onEdge_meridian b1 b2 b3 b4 _).2 ⟨ψ, h1, h2, rfl⟩, rfl⟩
  rw [← ang_gd]
  exact Real.cos_le_cos_of_nonneg_of_le_pi D0 (ang_le_pi _ _) this

/-- The point of the first meridian equally far from the ends of the piece of the second. -/
theorem bisector_val {b : R1.Interval ℝ} {δ : ℝ} (b1 : -(Real.pi / 2) ≤ b.lo) (b2 : b.lo ≤ b.hi) (b3 : b.hi ≤ Real.pi / 2)
    (h1 : Real.pi / 2 < δ) (h2 : δ ≤ Real.pi) :
    ∃ s m, 0 < s ∧ -(Real.pi / 2) ≤ m ∧ m ≤ Real.pi / 2 ∧
      S2.Rect.bisectorIntersection Real.pi _root_.id Real.sqrt Real.sin Real.cos b δ = smul s (direction m 0) ∧
      s * Real.cos m = 2 * Real.cos ((b.lo + b.hi) / 2) ∧ s * Real.sin m = 2 * (Real.cos δ * Real.sin ((b.lo + b.hi) / 2)) := by
  have hp := Real.pi_pos
  obtain ⟨c, hc⟩ : ∃ c, c = (b.lo + b.hi) / 2 := ⟨_, rfl⟩
  rw [← hc]
  have c1 : -(Real.pi / 2) ≤ c := by linarith
  have c2 : c ≤ Real.pi / 2 := by linarith
  have kneg : Real.cos δ < 0 := Real.cos_neg_of_pi_div_two_lt_of_lt h1 (by linarith)
  have ec : b.center _root_.id = c := by rw [hc]; simp only [R1.Interval.center, _root_.id]; ring
  have eo : Vec.fromCoords _root_.id Real.sqrt 0 (-1) (0 : ℝ) = ⟨0, -1, 0⟩ := by
    unfold Vec.fromCoords
    rw [if_neg (by norm_num)]
    simp [Vec.normalize, Vec.norm2, Vec.dot, Vec.norm, Vec.scale]
  have ed : ∀ P : LatLng ℝ, (P = ⟨c - Real.pi / 2, δ⟩ ∨ P = ⟨-c - Real.pi / 2, δ - Real.pi⟩) →
      LatLng.toPoint _root_.id Real.sin Real.cos P = ⟨Real.sin c * Real.cos δ, Real.sin c * Real.sin δ, -Real.cos c⟩ := by
    rintro P (rfl | rfl) <;> rw [toPoint_eq] <;> unfold direction <;> dsimp only
    · rw [Real.cos_sub_pi_div_two, Real.sin_sub_pi_div_two]
    · rw [Real.cos_sub_pi_div_two, Real.sin_sub_pi_div_two, Real.cos_sub_pi, Real.sin_sub_pi, Real.sin_neg, Real.cos_neg]
      refine vec_ext' ?_ ?_ ?_ <;> dsimp only <;> ring
  have hval : S2.Rect.bisectorIntersection Real.pi _root_.id Real.sqrt Real.sin Real.cos b δ =
      Vec.pointCross _root_.id Real.sqrt ⟨0, -1, 0⟩ ⟨Real.sin c * Real.cos δ, Real.sin c * Real.sin δ, -Real.cos c⟩ := by
    unfold S2.Rect.bisectorIntersection
    dsimp only
    rw [ec, eo, abs_of_pos (by linarith : 0 < δ)]
    refine congrArg _ (ed _ ?_)
    split_ifs
    · left; rfl
    · right; rfl
  have hcr : cross (⟨0, -1, 0⟩ : Vec ℝ) ⟨Real.sin c * Real.cos δ, Real.sin c * Real.sin δ, -Real.cos c⟩ = ⟨Real.cos c, 0, Real.sin c * Real.cos δ⟩ := by
    simp only [cross]
    refine vec_ext' ?_ ?_ ?_ <;> dsimp only <;> ring
  have hnz : ¬ IsZero (⟨Real.cos c, 0, Real.sin c * Real.cos δ⟩ : Vec ℝ) := by
    rintro ⟨z1, _, z3⟩
    dsimp only at z1 z3
    have t := Real.sin_sq_add_cos_sq c
    rcases mul_eq_zero.1 z3 with z | z
    · rw [z1, z] at t; norm_num at t
    · exact kneg.ne z
  have hpc := (c74_pointCross (K := ℝ) isSqrt_real (p := ⟨0, -1, 0⟩) (q := ⟨Real.sin c * Real.cos δ, Real.sin c * Real.sin δ, -Real.cos c⟩)
    (by rintro ⟨_, h, _⟩; norm_num at h)
    (by
      simp only [dot]
      linear_combination (-Real.sin c ^ 2) * Real.sin_sq_add_cos_sq δ - Real.sin_sq_add_cos_sq c)).2.2.2.1 (by rw [hcr]; exact hnz)
  rw [hval, hpc, hcr]
  obtain ⟨s, m, t, s0, m1, m2, t1, t2, e, _, _⟩ := exists_direction hnz
  have cc : 0 ≤ Real.cos c := Real.cos_nonneg_of_mem_Icc ⟨c1, c2⟩
  have cm : 0 ≤ Real.cos m := Real.cos_nonneg_of_mem_Icc ⟨m1, m2⟩
  simp only [smul, direction, Vec.mk.injEq] at e
  obtain ⟨e1, e2, e3⟩ := e
  have ecos : s * Real.cos m = Real.cos c := by
    have : (s * Real.cos m) ^ 2 = Real.cos c ^ 2 := by
      rw [e1]
      linear_combination (-(s * Real.cos m) ^ 2) * Real.sin_sq_add_cos_sq t + (s * (Real.cos m * Real.sin t)) * (-e2)
    have h := abs_eq_abs.2 (sq_eq_sq_iff_eq_or_eq_neg.1 this)
    rwa [abs_of_nonneg (mul_nonneg s0.le cm), abs_of_nonneg cc] at h
  refine ⟨2 * s, m, by linarith, m1, m2, ?_, by rw [mul_assoc, ecos], by rw [mul_assoc, ← e3]; ring⟩
  simp only [smul, direction, Real.cos_zero, Real.sin_zero, Vec.mk.injEq]
  refine ⟨by rw [mul_one, mul_assoc, ecos], by ring, by rw [e3]; ring⟩

/-- `interior_max_distance` in exact arithmetic, for a point of a meridian more than a right angle away. -/
theorem interiorMax_val {atan2 : ℝ → ℝ → ℝ} (hat : IsArg atan2) {a : R1.Interval ℝ} {ψ δ : ℝ} (h1 : -(Real.pi / 2) ≤ ψ) (h2 : ψ ≤ Real.pi / 2)
    (d1 : Real.pi / 2 < δ) (d2 : δ ≤ Real.pi) (ha : a.lo ≤ a.hi) :
    (Real.cos ψ = 0 ∧ S2.Rect.interiorMaxDistance _root_.id Real.sqrt atan2 a (direction ψ δ) = none) ∨
    ∃ R φ₀, 0 < R ∧ -(Real.pi / 2) ≤ φ₀ ∧ φ₀ ≤ Real.pi / 2 ∧ -(Real.cos δ * Real.cos ψ) = R * Real.cos φ₀ ∧ -Real.sin ψ = R * Real.sin φ₀ ∧
      (a.lo < φ₀ → φ₀ < a.hi → S2.Rect.interiorMaxDistance _root_.id Real.sqrt atan2 a (direction ψ δ) = some (ang (direction φ₀ 0) (direction ψ δ))) ∧
      (¬ (a.lo < φ₀ ∧ φ₀ < a.hi) → S2.Rect.interiorMaxDistance _root_.id Real.sqrt atan2 a (direction ψ δ) = none) := by
  have hp := Real.pi_pos
  have kneg : Real.cos δ < 0 := Real.cos_neg_of_pi_div_two_lt_of_lt d1 (by linarith)
  have cψ : 0 ≤ Real.cos ψ := Real.cos_nonneg_of_mem_Icc ⟨h1, h2⟩
  have ae : a.isEmpty = false := R1.isEmpty_eq_false.2 ha
  rcases cψ.eq_or_lt with c0 | c0
  · left
    refine ⟨c0.symm, ?_⟩
    unfold S2.Rect.interiorMaxDistance
    have : (direction ψ δ).x ≥ 0 := by unfold direction; dsimp only; rw [← c0]; simp
    rw [if_pos (by simp [this])]
  right
  have hx : (direction ψ δ).x < 0 := mul_neg_of_pos_of_neg c0 kneg
  have hnz : ¬ IsZero (⟨-(direction ψ δ).x, 0, -(direction ψ δ).z⟩ : Vec ℝ) := fun h => by
    have := h.1
    dsimp only at this
    linarith
  obtain ⟨R, φ₀, t, R0, p1, p2, t1, t2, e, _, _⟩ := exists_direction hnz
  have cm : 0 ≤ Real.cos φ₀ := Real.cos_nonneg_of_mem_Icc ⟨p1, p2⟩
  simp only [smul, direction, Vec.mk.injEq] at e
  obtain ⟨e1, e2, e3⟩ := e
  have q0 : 0 < -(Real.cos δ * Real.cos ψ) := by rw [← neg_mul]; exact mul_pos (by linarith) c0
  have ecos : -(Real.cos δ * Real.cos ψ) = R * Real.cos φ₀ := by
    have : (R * Real.cos φ₀) ^ 2 = (-(Real.cos δ * Real.cos ψ)) ^ 2 := by
      rw [show -(Real.cos δ * Real.cos ψ) = R * (Real.cos φ₀ * Real.cos t) by rw [← e1]; ring]
      linear_combination (-(R * Real.cos φ₀) ^ 2) * Real.sin_sq_add_cos_sq t + (R * (Real.cos φ₀ * Real.sin t)) * (-e2)
    have h := abs_eq_abs.2 (sq_eq_sq_iff_eq_or_eq_neg.1 this)
    rw [abs_of_nonneg (mul_nonneg R0.le cm), abs_of_pos q0] at h
    exact h.symm
  have en : Vec.fromCoords _root_.id Real.sqrt (-(direction ψ δ).x) 0 (-(direction ψ δ).z) = direction φ₀ 0 := by
    have ev : (⟨-(direction ψ δ).x, 0, -(direction ψ δ).z⟩ : Vec ℝ) = smul R (direction φ₀ 0) := by
      simp only [smul, direction, Real.cos_zero, Real.sin_zero, Vec.mk.injEq]
      exact ⟨by rw [mul_one, ← ecos]; ring, by ring, e3⟩
    unfold Vec.fromCoords
    rw [if_neg (show ¬ (-(direction ψ δ).x = 0 ∧ (0 : ℝ) = 0 ∧ -(direction ψ δ).z = 0) from hnz), ev]
    obtain ⟨s, s0, hs, hu⟩ := c74_normalize isSqrt_real (p := smul R (direction φ₀ 0)) (by rw [← ev]; exact hnz)
    rw [hs] at hu ⊢
    have hsR : s * R = 1 := by
      have l1 : dot (smul s (smul R (direction φ₀ 0))) (smul s (smul R (direction φ₀ 0))) = (s * R) ^ 2 * dot (direction φ₀ 0) (direction φ₀ 0) := by
        simp only [dot, smul]; ring
      rw [l1, show dot (direction φ₀ 0) (direction φ₀ 0) = 1 from unit_direction _ _, mul_one] at hu
      exact (pow_eq_one_iff_of_nonneg (mul_pos s0 R0).le two_ne_zero).1 hu
    have : smul s (smul R (direction φ₀ 0)) = smul (s * R) (direction φ₀ 0) := by simp only [smul, mul_assoc]
    rw [this, hsR]
    simp [smul]
  have el : (LatLng.ofPoint _root_.id Real.sqrt atan2 (direction φ₀ 0)).lat = φ₀ := by
    have := (ofPoint_direction hat (s := 1) (t := 0) one_pos p1 p2 (by linarith) hp.le).1
    rwa [show smul 1 (direction φ₀ 0) = direction φ₀ 0 by simp [smul]] at this
  have hval : S2.Rect.interiorMaxDistance _root_.id Real.sqrt atan2 a (direction ψ δ) =
      if a.interiorContains φ₀ then some (ang (direction φ₀ 0) (direction ψ δ)) else none := by
    unfold S2.Rect.interiorMaxDistance
    rw [if_neg (by simp [ae, hx])]
    dsimp only
    rw [en, el, angle_exact (isArg_isAtan2 hat) (unit_direction _ _) (unit_direction _ _), ang_comm]
  refine ⟨R, φ₀, R0, p1, p2, ecos, e3, fun i1 i2 => ?_, fun hn => ?_⟩
  · rw [hval, if_pos (by simp [R1.Interval.interiorContains, i1, i2])]
  · rw [hval, if_neg (by simpa [R1.Interval.interiorContains] using fun h => not_lt.1 fun h' => hn ⟨h, h'⟩)]

/-- The piece of the first meridian on one side of the bisector, and the end of the second piece that is nearer there. -/
theorem one_side {atan2 : ℝ → ℝ → ℝ} (hat : IsArg atan2) {lo hi e δ : ℝ} (h1 : -(Real.pi / 2) ≤ lo) (h2 : lo ≤ hi) (h3 : hi ≤ Real.pi / 2)
    (e1 : -(Real.pi / 2) ≤ e) (e2 : e ≤ Real.pi / 2) (d1 : Real.pi / 2 < δ) (d2 : δ ≤ Real.pi) :
    (∀ F, S2.Rect.interiorMaxDistance _root_.id Real.sqrt atan2 ⟨lo, hi⟩ (direction e δ) = some F →
      ∃ φ, lo ≤ φ ∧ φ ≤ hi ∧ F = ang (direction φ 0) (direction e δ)) ∧
    ∀ D, 0 ≤ D → D ≤ Real.pi → Real.cos D ≤ gd (Real.cos δ) lo e → Real.cos D ≤ gd (Real.cos δ) hi e →
      (∀ F, S2.Rect.interiorMaxDistance _root_.id Real.sqrt atan2 ⟨lo, hi⟩ (direction e δ) = some F → F ≤ D) →
      ∀ φ, lo ≤ φ → φ ≤ hi → Real.cos D ≤ gd (Real.cos δ) φ e := by
  rcases interiorMax_val hat (a := ⟨lo, hi⟩) e1 e2 d1 d2 h2 with ⟨c0, hn⟩ | ⟨R, φ₀, R0, p1, p2, q1, q2, hs, hn⟩
  · rw [hn]
    refine ⟨fun F h => (by cases h), fun D _ _ k1 k2 _ φ f1 f2 => ?_⟩
    have := unimodal (A := Real.cos δ * Real.cos e) (B := Real.sin e) (by rw [c0, mul_zero]) h1 f1 f2 h3
    unfold gd at *
    rcases this with h | h <;> linarith
  · refine ⟨fun F h => ?_, fun D D0 Dp k1 k2 k3 φ f1 f2 => ?_⟩
    · by_cases hc : lo < φ₀ ∧ φ₀ < hi
      · rw [hs hc.1 hc.2] at h
        exact ⟨φ₀, hc.1.le, hc.2.le, (Option.some.inj h).symm⟩
      · rw [hn hc] at h; cases h
    · obtain ⟨_, g1, g2, g3⟩ := gd_far_piece p1 p2 R0.le q1 q2 h1 f1 f2 h3
      by_cases hc : lo < φ₀ ∧ φ₀ < hi
      · have := k3 _ (hs hc.1 hc.2)
        have := Real.cos_le_cos_of_nonneg_of_le_pi (ang_nonneg _ _) Dp this
        rw [ang_gd] at this
        exact this.trans g1
      · rcases le_or_gt φ₀ lo with h | h
        · exact k1.trans (g2 h)
        · exact k2.trans (g3 (not_lt.1 fun h' => hc ⟨h, h'⟩))

theorem angle_smul {atan2 : ℝ → ℝ → ℝ} (hat : IsAtan2 atan2) {u v : Vec ℝ} (hu : UnitV u) (hv : UnitV v) {s : ℝ} (hs : 0 < s) :
    Vec.angle _root_.id Real.sqrt atan2 (smul s u) v = ang u v := by
  have l1 : dot (smul s u) (smul s u) = s ^ 2 := by
    have : dot (smul s u) (smul s u) = s ^ 2 * dot u u := by simp only [dot, smul]; ring
    rw [this, hu, mul_one]
  have l2 : dot (smul s u) v = s * dot u v := by simp only [dot, smul]; ring
  rw [angle_general hat (by rw [l1]; positivity) (by rw [hv]; exact one_pos), l1, l2, hv, Real.sqrt_one, mul_one, Real.sqrt_sq hs.le,
    mul_div_cancel_left₀ _ hs.ne']
  rfl

theorem le_maxOpt (m : ℝ) (o : Option ℝ) : m ≤ S2.Rect.maxOpt m o ∧ ∀ F, o = some F → F ≤ S2.Rect.maxOpt m o := by
  cases o with
  | none => exact ⟨le_rfl, fun F h => by cases h⟩
  | some d => exact ⟨le_max_left _ _, fun F h => by rw [← Option.some.inj h]; exact le_max_right _ _⟩

theorem maxOpt_or (m : ℝ) (o : Option ℝ) : S2.Rect.maxOpt m o = m ∨ o = some (S2.Rect.maxOpt m o) := by
  cases o with
  | none => exact Or.inl rfl
  | some d => rcases max_choice m d with h | h
              · exact Or.inl h
              · right; show some d = some (max m d); rw [h]

/-- `hausdorff_distance_helper` in exact arithmetic. -/
theorem helper_spec {atan2 : ℝ → ℝ → ℝ} (hat : IsArg atan2) {a b : R1.Interval ℝ} {δ : ℝ} (a1 : -(Real.pi / 2) ≤ a.lo) (a2 : a.lo ≤ a.hi)
    (a3 : a.hi ≤ Real.pi / 2) (b1 : -(Real.pi / 2) ≤ b.lo) (b2 : b.lo ≤ b.hi) (b3 : b.hi ≤ Real.pi / 2) (d0 : 0 ≤ δ) (d1 : δ ≤ Real.pi)
    (h4 : δ = 0 ∨ b.hi - b.lo < Real.pi) :
    ∃ D : ℝ, S2.Rect.hausdorffHelper Real.pi _root_.id Real.sqrt Real.sin Real.cos Real.arcsin atan2 δ a b = some ((D : ℝ) : WithTop ℝ) ∧
      Cand (Real.cos δ) a.lo a.hi b.lo b.hi D ∧ ∀ φ, a.lo ≤ φ → φ ≤ a.hi → ∃ ψ, b.lo ≤ ψ ∧ ψ ≤ b.hi ∧ Real.cos D ≤ gd (Real.cos δ) φ ψ := by
  have hp := Real.pi_pos
  have ha : Rust.assert (0 ≤ δ ∧ δ ≤ Real.pi) = some () := by simp [Rust.assert, d0, d1]
  by_cases hz : δ = 0
  · obtain ⟨d, e, u, l⟩ := R1.c49_hausdorff (R1.isEmpty_eq_false.2 a2) (R1.isEmpty_eq_false.2 b2)
    have g1 : ∀ φ ψ, gd (Real.cos δ) φ ψ = Real.cos |φ - ψ| := by
      intro φ ψ
      unfold gd
      rw [hz, Real.cos_zero, Real.cos_abs, Real.cos_sub, one_mul]
    have rng : ∀ {φ ψ}, a.lo ≤ φ → φ ≤ a.hi → b.lo ≤ ψ → ψ ≤ b.hi → |φ - ψ| ≤ Real.pi := fun p1 p2 p3 p4 => abs_le.2 ⟨by linarith, by linarith⟩
    obtain ⟨φ, hφ, hl⟩ := l
    obtain ⟨q, hq, hq'⟩ := u φ hφ
    have dp : d ≤ Real.pi := (hl q hq).trans (rng hφ.1 hφ.2 hq.1 hq.2)
    have dn : 0 ≤ d := (abs_nonneg _).trans hq'
    refine ⟨d, ?_, ⟨dn, dp, φ, hφ.1, hφ.2, fun ψ p1 p2 => ?_⟩, fun φ' f1 f2 => ?_⟩
    · unfold S2.Rect.hausdorffHelper
      rw [ha, Option.bind_eq_bind, Option.bind_some, if_pos hz]
      exact congrArg some e
    · rw [g1]
      exact Real.cos_le_cos_of_nonneg_of_le_pi dn (rng hφ.1 hφ.2 p1 p2) (hl ψ ⟨p1, p2⟩)
    · obtain ⟨ψ, hψ, h⟩ := u φ' ⟨f1, f2⟩
      refine ⟨ψ, hψ.1, hψ.2, ?_⟩
      rw [g1]
      exact Real.cos_le_cos_of_nonneg_of_le_pi (abs_nonneg _) dp h
  have h4 := h4.resolve_left hz
  have dpos : 0 < δ := lt_of_le_of_ne d0 (Ne.symm hz)
  obtain ⟨D1, eD1⟩ : ∃ D, D = EdgeUtil.distanceFromSegment _root_.id Real.sqrt Real.arcsin (direction a.lo 0) (direction b.lo δ) (direction b.hi δ) := ⟨_, rfl⟩
  obtain ⟨D2, eD2⟩ : ∃ D, D = EdgeUtil.distanceFromSegment _root_.id Real.sqrt Real.arcsin (direction a.hi 0) (direction b.lo δ) (direction b.hi δ) := ⟨_, rfl⟩
  obtain ⟨x1, x2, x3, ψ₁, x4, x5, x6⟩ := segment_cand b1 b2 b3 h4 eD1
  obtain ⟨y1, y2, y3, ψ₂, y4, y5, y6⟩ := segment_cand b1 b2 b3 h4 eD2
  have c1 : Cand (Real.cos δ) a.lo a.hi b.lo b.hi D1 := ⟨x1, x2, a.lo, le_rfl, a2, x3⟩
  have c2 : Cand (Real.cos δ) a.lo a.hi b.lo b.hi D2 := ⟨y1, y2, a.hi, a2, le_rfl, y3⟩
  have c12 := cand_max c1 c2
  by_cases hd : δ ≤ Real.pi / 2
  · have kn : 0 ≤ Real.cos δ := Real.cos_nonneg_of_mem_Icc ⟨by linarith, hd⟩
    refine ⟨if a.contains 0 && b.contains 0 then max (max D1 D2) δ else max D1 D2, ?_, ?_, ?_⟩
    · unfold S2.Rect.hausdorffHelper
      rw [ha, Option.bind_eq_bind, Option.bind_some, if_neg hz]
      dsimp only
      rw [if_pos hd]
      simp only [toPoint_eq, ← eD1, ← eD2]
    · split_ifs with h
      · simp only [R1.Interval.contains, Bool.and_eq_true, decide_eq_true_eq] at h
        obtain ⟨⟨z1, z2⟩, z3, z4⟩ := h
        refine cand_max c12 ⟨d0, d1, 0, z1, z2, fun ψ p1 p2 => ?_⟩
        unfold gd
        rw [Real.cos_zero, Real.sin_zero]
        have := mul_le_mul_of_nonneg_left (Real.cos_le_one ψ) kn
        linarith
      · exact c12
    · intro φ f1 f2
      have dmax : ∀ E, E = (if a.contains 0 && b.contains 0 then max (max D1 D2) δ else max D1 D2) →
          D1 ≤ E ∧ D2 ≤ E ∧ E ≤ Real.pi ∧ (a.lo ≤ 0 → 0 ≤ a.hi → b.lo ≤ 0 → 0 ≤ b.hi → δ ≤ E) := by
        intro E hE
        split_ifs at hE with h
        · rw [hE]
          exact ⟨(le_max_left _ _).trans (le_max_left _ _), (le_max_right _ _).trans (le_max_left _ _), max_le (max_le x2 y2) d1, fun _ _ _ _ => le_max_right _ _⟩
        · rw [hE]
          refine ⟨le_max_left _ _, le_max_right _ _, max_le x2 y2, fun z1 z2 z3 z4 => ?_⟩
          exact absurd (by simp [R1.Interval.contains, z1, z2, z3, z4]) h
      obtain ⟨m1, m2, m3, m4⟩ := dmax _ rfl
      generalize (if a.contains 0 && b.contains 0 then max (max D1 D2) δ else max D1 D2) = E at *
      refine gd_near kn (Real.cos_le_one δ) a1 a3 b1 b3 f1 f2 ⟨ψ₁, x4, x5, ?_⟩ ⟨ψ₂, y4, y5, ?_⟩ fun z1 z2 z3 z4 => ?_
      · rw [← x6]; exact Real.cos_le_cos_of_nonneg_of_le_pi x1 m3 m1
      · rw [← y6]; exact Real.cos_le_cos_of_nonneg_of_le_pi y1 m3 m2
      · exact Real.cos_le_cos_of_nonneg_of_le_pi d0 m3 (m4 z1 z2 z3 z4)
  · push Not at hd
    have kneg : Real.cos δ < 0 := Real.cos_neg_of_pi_div_two_lt_of_lt hd (by linarith)
    obtain ⟨s, m, s0, m1, m2, hb, hm1, hm2⟩ := bisector_val b1 b2 b3 hd d1
    have plat : LatLng.latitude _root_.id Real.sqrt atan2 (smul s (direction m 0)) = m :=
      (ofPoint_direction hat s0 m1 m2 (by linarith) hp.le).1
    -- which end is nearer
    have side : ∀ φ, -(Real.pi / 2) ≤ φ → φ ≤ Real.pi / 2 →
        (φ ≤ m → gd (Real.cos δ) φ b.hi ≤ gd (Real.cos δ) φ b.lo) ∧ (m ≤ φ → gd (Real.cos δ) φ b.lo ≤ gd (Real.cos δ) φ b.hi) := by
      intro φ f1 f2
      obtain ⟨g1, g2⟩ := gd_far_side (k := Real.cos δ) (φ := φ) b2 (by linarith)
      have e : Real.sin φ * Real.cos ((b.lo + b.hi) / 2) - Real.cos δ * Real.cos φ * Real.sin ((b.lo + b.hi) / 2) = s / 2 * Real.sin (φ - m) := by
        rw [Real.sin_sub]
        linear_combination (-Real.sin φ / 2) * hm1 + Real.cos φ / 2 * hm2
      constructor
      · intro h
        have := Real.sin_nonneg_of_nonneg_of_le_pi (x := m - φ) (by linarith) (by linarith)
        rw [← neg_sub, Real.sin_neg] at this
        exact g1 (by nlinarith)
      · intro h
        have := Real.sin_nonneg_of_nonneg_of_le_pi (x := φ - m) (by linarith) (by linarith)
        exact g2 (by nlinarith)
    have far : ∀ φ, -(Real.pi / 2) ≤ φ → φ ≤ Real.pi / 2 → ∀ ψ, b.lo ≤ ψ → ψ ≤ b.hi →
        (φ ≤ m → gd (Real.cos δ) φ ψ ≤ gd (Real.cos δ) φ b.lo) ∧ (m ≤ φ → gd (Real.cos δ) φ ψ ≤ gd (Real.cos δ) φ b.hi) := by
      intro φ f1 f2 ψ p1 p2
      have := gd_far_ends kneg.le f1 f2 b1 b3 p1 p2
      exact ⟨fun h => this.trans (max_le le_rfl ((side φ f1 f2).1 h)), fun h => this.trans (max_le ((side φ f1 f2).2 h) le_rfl)⟩
    obtain ⟨E, eE⟩ : ∃ E, E = ang (direction m 0) (direction b.lo δ) := ⟨_, rfl⟩
    obtain ⟨oL, eL⟩ : ∃ o, o = S2.Rect.interiorMaxDistance _root_.id Real.sqrt atan2 ⟨a.lo, min m a.hi⟩ (direction b.lo δ) := ⟨_, rfl⟩
    obtain ⟨oH, eH⟩ : ∃ o, o = S2.Rect.interiorMaxDistance _root_.id Real.sqrt atan2 ⟨max m a.lo, a.hi⟩ (direction b.hi δ) := ⟨_, rfl⟩
    obtain ⟨M1, eM1⟩ : ∃ M, M = if a.contains m then max (max D1 D2) E else max D1 D2 := ⟨_, rfl⟩
    obtain ⟨M2, eM2⟩ : ∃ M, M = if m > a.lo then S2.Rect.maxOpt M1 oL else M1 := ⟨_, rfl⟩
    obtain ⟨M3, eM3⟩ : ∃ M, M = if m < a.hi then S2.Rect.maxOpt M2 oH else M2 := ⟨_, rfl⟩
    have hval : S2.Rect.hausdorffHelper Real.pi _root_.id Real.sqrt Real.sin Real.cos Real.arcsin atan2 δ a b = some ((M3 : ℝ) : WithTop ℝ) := by
      unfold S2.Rect.hausdorffHelper
      rw [ha, Option.bind_eq_bind, Option.bind_some, if_neg hz]
      dsimp only
      rw [if_neg (not_le.2 hd)]
      simp only [toPoint_eq, ← eD1, ← eD2, hb, plat]
      rw [angle_smul (isArg_isAtan2 hat) (unit_direction _ _) (unit_direction _ _) s0, ← eE, ← eL, ← eH, ← eM1, ← eM2, ← eM3]
    have cE : a.lo ≤ m → m ≤ a.hi → Cand (Real.cos δ) a.lo a.hi b.lo b.hi E := fun z1 z2 =>
      ⟨by rw [eE]; exact ang_nonneg _ _, by rw [eE]; exact ang_le_pi _ _, m, z1, z2, fun ψ p1 p2 => by
        rw [eE, ang_gd]; exact (far m m1 m2 ψ p1 p2).1 le_rfl⟩
    have C1 : Cand (Real.cos δ) a.lo a.hi b.lo b.hi M1 := by
      rw [eM1]
      split_ifs with h
      · simp only [R1.Interval.contains, Bool.and_eq_true, decide_eq_true_eq] at h
        exact cand_max c12 (cE h.1 h.2)
      · exact c12
    have C2 : Cand (Real.cos δ) a.lo a.hi b.lo b.hi M2 := by
      rw [eM2]
      split_ifs with h
      · rcases maxOpt_or M1 oL with h' | h'
        · rw [h']; exact C1
        · generalize S2.Rect.maxOpt M1 oL = F at *
          rw [eL] at h'
          obtain ⟨φ, f1, f2, rfl⟩ := (one_side hat a1 (le_min h.le a2) ((min_le_right _ _).trans a3) b1 (b2.trans b3) hd d1).1 F h'
          refine ⟨ang_nonneg _ _, ang_le_pi _ _, φ, f1, f2.trans (min_le_right _ _), fun ψ p1 p2 => ?_⟩
          rw [ang_gd]
          exact (far φ (a1.trans f1) (f2.trans ((min_le_right _ _).trans a3)) ψ p1 p2).1 (f2.trans (min_le_left _ _))
      · exact C1
    have C3 : Cand (Real.cos δ) a.lo a.hi b.lo b.hi M3 := by
      rw [eM3]
      split_ifs with h
      · rcases maxOpt_or M2 oH with h' | h'
        · rw [h']; exact C2
        · generalize S2.Rect.maxOpt M2 oH = F at *
          rw [eH] at h'
          obtain ⟨φ, f1, f2, rfl⟩ := (one_side hat (a1.trans (le_max_right _ _)) (max_le h.le a2) a3 (b1.trans b2) b3 hd d1).1 F h'
          refine ⟨ang_nonneg _ _, ang_le_pi _ _, φ, (le_max_right _ _).trans f1, f2, fun ψ p1 p2 => ?_⟩
          rw [ang_gd]
          exact (far φ (a1.trans ((le_max_right _ _).trans f1)) (f2.trans a3) ψ p1 p2).2 ((le_max_left _ _).trans f1)
      · exact C2
    have l01 : max D1 D2 ≤ M1 ∧ (a.lo ≤ m → m ≤ a.hi → E ≤ M1) := by
      rw [eM1]
      split_ifs with h
      · exact ⟨le_max_left _ _, fun _ _ => le_max_right _ _⟩
      · exact ⟨le_rfl, fun z1 z2 => absurd (by simp [R1.Interval.contains, z1, z2]) h⟩
    have l12 : M1 ≤ M2 ∧ (a.lo < m → ∀ F, oL = some F → F ≤ M2) := by
      rw [eM2]
      split_ifs with h
      · exact ⟨(le_maxOpt _ _).1, fun _ => (le_maxOpt _ _).2⟩
      · exact ⟨le_rfl, fun h' => absurd h' h⟩
    have l23 : M2 ≤ M3 ∧ (m < a.hi → ∀ F, oH = some F → F ≤ M3) := by
      rw [eM3]
      split_ifs with h
      · exact ⟨(le_maxOpt _ _).1, fun _ => (le_maxOpt _ _).2⟩
      · exact ⟨le_rfl, fun h' => absurd h' h⟩
    have C3' := C3
    obtain ⟨t0, tp, _⟩ := C3
    have le1 : Real.cos M3 ≤ Real.cos D1 := Real.cos_le_cos_of_nonneg_of_le_pi x1 tp (by linarith [le_max_left D1 D2, l01.1, l12.1, l23.1])
    have le2 : Real.cos M3 ≤ Real.cos D2 := Real.cos_le_cos_of_nonneg_of_le_pi y1 tp (by linarith [le_max_right D1 D2, l01.1, l12.1, l23.1])
    have leE : a.lo ≤ m → m ≤ a.hi → Real.cos M3 ≤ gd (Real.cos δ) m b.lo := by
      intro z1 z2
      rw [← ang_gd, ← eE]
      exact Real.cos_le_cos_of_nonneg_of_le_pi (cE z1 z2).1 tp (by linarith [l01.2 z1 z2, l12.1, l23.1])
    have eqm : gd (Real.cos δ) m b.lo ≤ gd (Real.cos δ) m b.hi := (side m m1 m2).2 le_rfl
    refine ⟨M3, hval, C3', fun φ f1 f2 => ?_⟩
    rcases le_total φ m with hφ | hφ
    · refine ⟨b.lo, le_rfl, b2, ?_⟩
      have endlo : Real.cos M3 ≤ gd (Real.cos δ) a.lo b.lo := by
        rw [x6] at le1
        exact le1.trans ((far a.lo a1 (a2.trans a3) ψ₁ x4 x5).1 (f1.trans hφ))
      rcases f1.eq_or_lt with f1' | f1'
      · rw [← f1']; exact endlo
      have hlt : a.lo < m := lt_of_lt_of_le f1' hφ
      refine (one_side hat a1 (le_min hlt.le a2) ((min_le_right _ _).trans a3) b1 (b2.trans b3) hd d1).2 M3 t0 tp endlo ?_
        (fun F hF => (l12.2 hlt F (by rw [eL]; exact hF)).trans l23.1) φ f1 (le_min hφ f2)
      rcases le_total m a.hi with h | h
      · rw [min_eq_left h]; exact leE hlt.le h
      · rw [min_eq_right h]
        rw [y6] at le2
        exact le2.trans ((far a.hi (a1.trans a2) a3 ψ₂ y4 y5).1 h)
    · refine ⟨b.hi, b2, le_rfl, ?_⟩
      have endhi : Real.cos M3 ≤ gd (Real.cos δ) a.hi b.hi := by
        rw [y6] at le2
        exact le2.trans ((far a.hi (a1.trans a2) a3 ψ₂ y4 y5).2 (hφ.trans f2))
      rcases f2.eq_or_lt with f2' | f2'
      · rw [f2']; exact endhi
      have hlt : m < a.hi := lt_of_le_of_lt hφ f2'
      refine (one_side hat (a1.trans (le_max_right _ _)) (max_le hlt.le a2) a3 (b1.trans b2) b3 hd d1).2 M3 t0 tp ?_ endhi
        (fun F hF => l23.2 hlt F (by rw [eH]; exact hF)) φ (max_le hφ f1) f2
      rcases le_total m a.lo with h | h
      · rw [max_eq_right h]
        rw [x6] at le1
        exact le1.trans ((far a.lo a1 (a2.trans a3) ψ₁ x4 x5).2 h)
      · rw [max_eq_left h]; exact (leE h hlt.le).trans eqm

namespace Spec

/-- `D` is the directed Hausdorff distance from `r` to `s` along the sphere: every point of `r` has a point of `s` at a distance of at most
`D`, and some point of `r` has none nearer. -/
def IsHausdorff (r s : Rect ℝ) (D : ℝ) : Prop :=
  (∀ a b, RPts Real.pi r a b → ∃ a' b', RPts Real.pi s a' b' ∧ ang (direction a b) (direction a' b') ≤ D) ∧
  ∃ a b, RPts Real.pi r a b ∧ ∀ a' b', RPts Real.pi s a' b' → D ≤ ang (direction a b) (direction a' b')

end Spec

/-- **C110.** In exact arithmetic `directed_hausdorff_distance` of non-empty rectangles is the greatest distance of a point of the first
from the second. -/
theorem c110_directed {atan2 : ℝ → ℝ → ℝ} (hat : IsArg atan2) {r s : S2.Rect ℝ} (hr : r.isValid Real.pi = true) (hs : s.isValid Real.pi = true)
    (hrE : r.isEmpty = false) (hsE : s.isEmpty = false) (h : s.lng.containsInterval Real.pi r.lng = true ∨ s.lat.hi - s.lat.lo < Real.pi) :
    ∃ D : ℝ, r.directedHausdorffDistance Real.pi _root_.id Real.sqrt Real.sin Real.cos Real.arcsin atan2 s = some ((D : ℝ) : WithTop ℝ) ∧
      0 ≤ D ∧ D ≤ Real.pi ∧ IsHausdorff r s D := by
  have hp := Real.pi_pos
  obtain ⟨o1, o2, o3, o4, o5⟩ := isValid_iff.1 hr
  obtain ⟨q1, q2, q3, q4, q5⟩ := isValid_iff.1 hs
  have hlat : r.lat.lo ≤ r.lat.hi := R1.isEmpty_eq_false.1 hrE
  have hlat' : s.lat.lo ≤ s.lat.hi := R1.isEmpty_eq_false.1 hsE
  obtain ⟨δ, eδ⟩ : ∃ δ, δ = r.lng.directedHausdorffDistance Real.pi _root_.id s.lng := ⟨_, rfl⟩
  obtain ⟨d0, d1, dU, ⟨l, hl, dL⟩, dz⟩ := lng_hausdorff o4 q4 (o5 ▸ hrE) (q5 ▸ hsE) eδ
  obtain ⟨D, e, ⟨D0, Dp, φ, f1, f2, f3⟩, hu⟩ := helper_spec hat o1 hlat o3 q1 hlat' q3 d0 d1 (h.imp dz _root_.id)
  have cn : ∀ {x : ℝ}, -(Real.pi / 2) ≤ x → x ≤ Real.pi / 2 → 0 ≤ Real.cos x := fun h1 h2 => Real.cos_nonneg_of_mem_Icc ⟨h1, h2⟩
  refine ⟨D, ?_, D0, Dp, fun a b hab => ?_, φ, l, ⟨⟨f1, f2⟩, hl⟩, fun a' b' hab => ?_⟩
  · unfold S2.Rect.directedHausdorffDistance
    rw [if_neg (by rw [hrE]; simp), if_neg (by rw [hsE]; simp), ← eδ]
    exact e
  · obtain ⟨b', hb, hc⟩ := dU b hab.2
    obtain ⟨ψ, p1, p2, p3⟩ := hu a hab.1.1 hab.1.2
    refine ⟨ψ, b', ⟨⟨p1, p2⟩, hb⟩, ?_⟩
    rw [← Real.arccos_cos D0 Dp]
    unfold ang
    apply Real.arccos_le_arccos
    refine p3.trans ?_
    rw [dot_direction]
    unfold gd
    have := mul_le_mul_of_nonneg_left hc (mul_nonneg (cn (o1.trans hab.1.1) (hab.1.2.trans o3)) (cn (q1.trans p1) (p2.trans q3)))
    linarith
  · rw [← Real.arccos_cos D0 Dp]
    unfold ang
    apply Real.arccos_le_arccos
    refine le_trans ?_ (f3 a' hab.1.1 hab.1.2)
    rw [dot_direction]
    unfold gd
    have := mul_le_mul_of_nonneg_left (dL b' hab.2) (mul_nonneg (cn (o1.trans f1) (f2.trans o3)) (cn (q1.trans hab.1.1) (hab.1.2.trans q3)))
    linarith

/-- **C110.** `hausdorff_distance` is the greater of the distances in the two directions: the least angle within which every point of each
rectangle has a point of the other. It does not depend on the order of the rectangles. -/
theorem c110_symmetric {atan2 : ℝ → ℝ → ℝ} (hat : IsArg atan2) {r s : S2.Rect ℝ} (hr : r.isValid Real.pi = true) (hs : s.isValid Real.pi = true)
    (hrE : r.isEmpty = false) (hsE : s.isEmpty = false) (h : s.lng.containsInterval Real.pi r.lng = true ∨ s.lat.hi - s.lat.lo < Real.pi)
    (h' : r.lng.containsInterval Real.pi s.lng = true ∨ r.lat.hi - r.lat.lo < Real.pi) :
    ∃ D : ℝ, r.hausdorffDistance Real.pi _root_.id Real.sqrt Real.sin Real.cos Real.arcsin atan2 s = some ((D : ℝ) : WithTop ℝ) ∧
      s.hausdorffDistance Real.pi _root_.id Real.sqrt Real.sin Real.cos Real.arcsin atan2 r = some ((D : ℝ) : WithTop ℝ) ∧
      (IsHausdorff r s D ∨ IsHausdorff s r D) ∧
      (∀ a b, RPts Real.pi r a b → ∃ a' b', RPts Real.pi s a' b' ∧ ang (direction a b) (direction a' b') ≤ D) ∧
      (∀ a b, RPts Real.pi s a b → ∃ a' b', RPts Real.pi r a' b' ∧ ang (direction a b) (direction a' b') ≤ D) := by
  obtain ⟨D, e1, _, _, u1⟩ := c110_directed hat hr hs hrE hsE h
  obtain ⟨E, e2, _, _, u2⟩ := c110_directed hat hs hr hsE hrE h'
  have cm : ∀ x y : ℝ, max ((x : ℝ) : WithTop ℝ) (y : WithTop ℝ) = ((max x y : ℝ) : WithTop ℝ) := fun x y => (WithTop.coe_max x y).symm
  refine ⟨max D E, ?_, ?_, ?_, fun a b hab => ?_, fun a b hab => ?_⟩
  · unfold S2.Rect.hausdorffDistance
    rw [e1, e2, Option.bind_eq_bind, Option.bind_some, Option.bind_some, cm]
  · unfold S2.Rect.hausdorffDistance
    rw [e1, e2, Option.bind_eq_bind, Option.bind_some, Option.bind_some, cm, max_comm]
  · rcases max_choice D E with e | e
    · left; rw [e]; exact u1
    · right; rw [e]; exact u2
  · obtain ⟨a', b', x1, x2⟩ := u1.1 a b hab
    exact ⟨a', b', x1, x2.trans (le_max_left _ _)⟩
  · obtain ⟨a', b', x1, x2⟩ := u2.1 a b hab
    exact ⟨a', b', x1, x2.trans (le_max_right _ _)⟩

/-- **C110.** The distance from an empty rectangle is zero, and from a non-empty one to an empty one a half circle, with any rounding. -/
theorem c110_empty (fl sqrt sin cos asin : ℝ → ℝ) (atan2 : ℝ → ℝ → ℝ) {r s : S2.Rect ℝ} :
    (r.isEmpty = true → r.directedHausdorffDistance Real.pi fl sqrt sin cos asin atan2 s = some ((0 : ℝ) : WithTop ℝ)) ∧
    (r.isEmpty = false → s.isEmpty = true → r.directedHausdorffDistance Real.pi fl sqrt sin cos asin atan2 s = some ((Real.pi : ℝ) : WithTop ℝ)) := by
  refine ⟨fun h => ?_, fun h h' => ?_⟩
  · unfold S2.Rect.directedHausdorffDistance
    rw [if_pos h]
  · unfold S2.Rect.directedHausdorffDistance
    rw [if_neg (by rw [h]; simp), if_pos h']

/-- A rectangle on the other side of the sphere. -/
noncomputable def exRect2 : S2.Rect ℝ := ⟨⟨-1 / 4, 1 / 2⟩, ⟨-1 / 2, 1 / 2⟩⟩

theorem exRect2_valid : exRect2.isValid Real.pi = true ∧ exRect2.isEmpty = false := by
  have hp := Real.pi_gt_three
  refine ⟨?_, ?_⟩
  · rw [isValid_iff]
    refine ⟨?_, ?_, ?_, ?_, ?_⟩
    · show -(Real.pi / 2) ≤ (-1 / 4 : ℝ); linarith
    · show (-1 / 4 : ℝ) ≤ Real.pi / 2; linarith
    · show (1 / 2 : ℝ) ≤ Real.pi / 2; linarith
    · rw [S1.isValid_iff]
      constructor <;> simp only [exRect2] <;> grind
    · have e1 : exRect2.lat.isEmpty = false := R1.isEmpty_eq_false.2 (by simp only [exRect2]; norm_num)
      have e2 : exRect2.lng.isEmpty Real.pi = false := by
        rw [← Bool.not_eq_true, S1.isEmpty_iff]
        simp only [exRect2]
        intro h
        linarith [h.1]
      rw [e1, e2]
  · exact R1.isEmpty_eq_false.2 (by simp only [exRect2]; norm_num)

example : ∃ D : ℝ, exRect.hausdorffDistance Real.pi _root_.id Real.sqrt Real.sin Real.cos Real.arcsin (fun y x => Complex.arg ⟨x, y⟩) exRect2 =
    some ((D : ℝ) : WithTop ℝ) ∧ (IsHausdorff exRect exRect2 D ∨ IsHausdorff exRect2 exRect D) := by
  have hp := Real.pi_gt_three
  obtain ⟨D, h1, _, h2, _⟩ := c110_symmetric isArg_arg exRect_valid.1 exRect2_valid.1 exRect_valid.2 exRect2_valid.2
    (Or.inr (by simp only [exRect2]; linarith)) (Or.inr (by simp only [exRect]; linarith))
  exact ⟨D, h1, h2⟩

end Verif
