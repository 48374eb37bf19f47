import Verif.Properties.EdgeInterp
import Verif.Properties.Stuv

/-!
# Clipping to a face: C80

`clip_to_face` gives the same (negated) normal to both calls of `clip_destination`. So the exit point of the line is looked for at the wrong end.
-/

namespace Verif
open Spec EdgeClip
variable {K : Type} [Field K] [LinearOrder K] [IsStrictOrderedRing K]

/-- What is needed of rounding and square root for the witness: a few small numbers are kept. -/
theorem clip_missed (fl sqrt : K → K) (neg : K → Bool) (sqrt2 : K) (h0 : fl 0 = 0) (h1 : fl 1 = 1) (h1' : fl (-1) = -1) (h2 : fl 2 = 2) (h2' : fl (-2) = -2)
    (h4 : fl 4 = 4) (hh : fl (1 / 2) = 1 / 2) (hs : sqrt 4 = 2) (hm : 0 < fl (1 - faceClipErrorUVCoord fl sqrt2)) :
    clipToFace fl sqrt neg sqrt2 ⟨1, 0, 0⟩ ⟨0, 1, 0⟩ 0 = some (⟨0, 0⟩, ⟨-1, 0⟩, false) := by
  have big : ¬ (2 : K) < 1 / 2 ^ 511 := by
    rw [not_lt]
    have : (1 : K) / 2 ^ 511 ≤ 1 := by rw [div_le_one (by positivity)]; exact one_le_pow₀ (by norm_num)
    linarith
  have hh' : fl (2⁻¹) = 2⁻¹ := by rw [← one_div]; exact hh
  unfold clipToFace clipToPaddedFace
  have e1 : vecFace (⟨0, 1, 0⟩ : Vec K) = 1 := by norm_num [vecFace]
  rw [e1, if_neg (by simp)]
  have en : Vec.pointCross fl sqrt (⟨1, 0, 0⟩ : Vec K) ⟨0, 1, 0⟩ = ⟨0, 0, 2⟩ := by
    norm_num [Vec.pointCross, Vec.cross, Vec.add, Vec.sub, h0, h1, h1', h2]
  rw [en]
  simp only [faceXYZtoUVW, Option.bind_eq_bind, Option.bind_some, add_zero, h1, one_mul, h2, h0]
  have ei : intersectsFace fl (⟨0, 2, 0⟩ : Vec K) = true := by norm_num [intersectsFace, h0, h2, h2']
  rw [ei, if_neg (by simp)]
  have em : ¬ max |(0 : K)| (max |(2 : K)| |(0 : K)|) < 1 / 2 ^ 511 := by
    norm_num
    norm_num at big
    exact big
  rw [if_neg em]
  have enn : Vec.normalize fl sqrt (⟨0, 2, 0⟩ : Vec K) = ⟨0, 1, 0⟩ := by
    norm_num [Vec.normalize, Vec.scale, Vec.norm, Vec.norm2, Vec.dot, h0, h1, h2, h4, hh, hs]
  rw [enn]
  have ea : Vec.pointCross fl sqrt (⟨0, 1, 0⟩ : Vec K) ⟨0, 0, 1⟩ = ⟨2, 0, 0⟩ := by
    norm_num [Vec.pointCross, Vec.cross, Vec.add, Vec.sub, h0, h1, h1', h2]
  have eb : Vec.pointCross fl sqrt (⟨0, 1, 0⟩ : Vec K) ⟨1, 0, 0⟩ = ⟨0, 0, -2⟩ := by
    norm_num [Vec.pointCross, Vec.cross, Vec.add, Vec.sub, h0, h1, h1', h2, h2']
  have es : Vec.scale fl (⟨0, 2, 0⟩ : Vec K) (-1) = ⟨0, -2, 0⟩ := by norm_num [Vec.scale, h0, h2']
  rw [ea, eb, es]
  have ra : clipDestination fl neg sqrt2 (⟨1, 0, 0⟩ : Vec K) ⟨0, 0, 1⟩ ⟨0, -2, 0⟩ ⟨0, 0, -2⟩ ⟨2, 0, 0⟩ 1 = (⟨0, 0⟩, 0) := by
    unfold clipDestination
    rw [if_pos ⟨by norm_num, by norm_num [h0]; exact hm⟩]
    norm_num [h0]
  have ex : exitAxis fl neg (⟨0, -2, 0⟩ : Vec K) = .U := by
    norm_num [exitAxis, intersectsOppositeEdges, h2']
  have rb : clipDestination fl neg sqrt2 (⟨0, 0, 1⟩ : Vec K) ⟨1, 0, 0⟩ ⟨0, -2, 0⟩ ⟨2, 0, 0⟩ ⟨0, 0, -2⟩ 1 = (⟨-1, 0⟩, 3) := by
    unfold clipDestination
    rw [if_neg (by norm_num), ex]
    norm_num [exitPoint, R2.Point.smul, Vec.sub, Vec.dot, h0, h1, h1', h2']
  rw [ra, rb]
  rfl

theorem sqrt2_ge {sqrt : K → K} (hs : IsSqrt sqrt) : 1 ≤ sqrt 2 := by
  obtain ⟨h1, h2⟩ := hs 2 (by norm_num)
  nlinarith

/-- **C80.** In exact arithmetic, `clip_to_face` reports that the edge from `(1, 0, 0)` to `(0, 1, 0)` does not meet face 0, whose centre is the
first end of the edge. -/
theorem c80_missed (sqrt : K → K) (hs : IsSqrt sqrt) (neg : K → Bool) :
    clipToFace _root_.id sqrt neg (sqrt 2) ⟨1, 0, 0⟩ ⟨0, 1, 0⟩ 0 = some (⟨0, 0⟩, ⟨-1, 0⟩, false) := by
  refine clip_missed _root_.id sqrt neg (sqrt 2) rfl rfl rfl rfl rfl rfl rfl ?_ ?_
  · obtain ⟨h1, h2⟩ := hs 4 (by norm_num)
    nlinarith
  · have h := sqrt2_ge hs
    have h1 : 1 / sqrt 2 ≤ 1 := by rw [div_le_one (by linarith)]; exact h
    unfold faceClipErrorUVCoord Predicates.dblEpsilon
    simp only [id]
    generalize 1 / sqrt 2 = z at *
    norm_num
    linarith

/-- **C80.** The same with IEEE rounding; `s2` is the constant `SQRT_2`. -/
theorem c80_missed_f64 [FloorRing K] (sqrt : K → K) (hs : IsSqrt sqrt) (neg : K → Bool) (s2 : K) (h2 : 1 ≤ s2) :
    clipToFace rne sqrt neg s2 ⟨1, 0, 0⟩ ⟨0, 1, 0⟩ 0 = some (⟨0, 0⟩, ⟨-1, 0⟩, false) := by
  have int (m : ℤ) (hm : |m| ≤ 2 ^ 53) : rne (m : K) = m := rne_exact (m := m) (k := 0) (by norm_num) hm (by norm_num)
  have i2 := int 2 (by norm_num)
  have i4 := int 4 (by norm_num)
  have i9 := int 9 (by norm_num)
  norm_num at i2 i4 i9
  have half : rne (1 / 2 : K) = 1 / 2 := rne_exact (m := 1) (k := -1) (by norm_num) (by norm_num) (by norm_num)
  refine clip_missed rne sqrt neg s2 rne_zero rne_one (by rw [rne_odd, rne_one]) i2 (by rw [rne_odd, i2]) i4 half ?_ ?_
  · obtain ⟨h1, h2⟩ := hs 4 (by norm_num)
    nlinarith
  · have h1 : rne (1 / s2) ≤ 1 := by
      have := rne_mono (show 1 / s2 ≤ 1 by rw [div_le_one (by linarith)]; exact h2)
      rwa [rne_one] at this
    have h9 : rne (9 * rne (1 / s2)) ≤ 9 := by
      have := rne_mono (show 9 * rne (1 / s2) ≤ 9 by linarith)
      rwa [i9] at this
    have he : Predicates.dblEpsilon (rne : K → K) ≤ 1 / 2 ^ 10 := by
      have h10 : rne (1 / 2 ^ 10 : K) = 1 / 2 ^ 10 := rne_exact (m := 1) (k := -10) (by norm_num [zpow_neg]) (by norm_num) (by norm_num)
      rw [← h10]
      exact rne_mono (by norm_num)
    have he0 : 0 ≤ Predicates.dblEpsilon (rne : K → K) := rne_nonneg (by norm_num)
    have hc : faceClipErrorUVCoord rne s2 ≤ 1 / 2 := by
      unfold faceClipErrorUVCoord
      rw [← half]
      refine rne_mono ?_
      calc rne (9 * rne (1 / s2)) * Predicates.dblEpsilon rne ≤ 9 * (1 / 2 ^ 10) := mul_le_mul h9 he he0 (by norm_num)
        _ ≤ 1 / 2 := by norm_num
    have := rne_mono (show 1 / 2 ≤ 1 - faceClipErrorUVCoord rne s2 by linarith)
    rw [half] at this
    linarith

/-- **C80.** In exact arithmetic, `clip_to_face` returns a point outside of the face: for the edge from the centre of face 0 to
`(3/5, 4/5, 0)`, which leaves the face at `(1, 0)`, the second point is `(4/3, 0)`. -/
theorem c80_outside (sqrt : K → K) (hs : IsSqrt sqrt) (neg : K → Bool) :
    clipToFace _root_.id sqrt neg (sqrt 2) ⟨1, 0, 0⟩ ⟨3 / 5, 4 / 5, 0⟩ 0 = some (⟨0, 0⟩, ⟨4 / 3, 0⟩, true) := by
  have hsq : sqrt (64 / 25) = 8 / 5 := by
    obtain ⟨h1, h2⟩ := hs (64 / 25) (by norm_num)
    nlinarith
  have h := sqrt2_ge hs
  have h1 : 1 / sqrt 2 ≤ 1 := by rw [div_le_one (by linarith)]; exact h
  have h0 : 0 ≤ 1 / sqrt 2 := by positivity
  have hm : 0 < 1 - faceClipErrorUVCoord _root_.id (sqrt 2) ∧ 1 - faceClipErrorUVCoord _root_.id (sqrt 2) ≤ 1 := by
    unfold faceClipErrorUVCoord Predicates.dblEpsilon
    simp only [id]
    generalize 1 / sqrt 2 = z at *
    norm_num
    constructor <;> linarith
  have big : ¬ (8 / 5 : K) < 1 / 2 ^ 511 := by
    rw [not_lt]
    have : (1 : K) / 2 ^ 511 ≤ 1 := by rw [div_le_one (by positivity)]; exact one_le_pow₀ (by norm_num)
    linarith
  unfold clipToFace clipToPaddedFace
  have e1 : vecFace (⟨3 / 5, 4 / 5, 0⟩ : Vec K) = 1 := by
    unfold vecFace
    norm_num [abs_of_pos, abs_div]
  rw [e1, if_neg (by simp)]
  have en : Vec.pointCross _root_.id sqrt (⟨1, 0, 0⟩ : Vec K) ⟨3 / 5, 4 / 5, 0⟩ = ⟨0, 0, 8 / 5⟩ := by
    norm_num [Vec.pointCross, Vec.cross, Vec.add, Vec.sub]
  rw [en]
  simp only [faceXYZtoUVW, Option.bind_eq_bind, Option.bind_some, add_zero, one_mul, id]
  have ei : intersectsFace _root_.id (⟨0, 8 / 5, 0⟩ : Vec K) = true := by
    unfold intersectsFace
    norm_num [abs_of_pos, abs_div]
  rw [ei, if_neg (by simp)]
  have em : ¬ max |(0 : K)| (max |(8 / 5 : K)| |(0 : K)|) < 1 / 2 ^ 511 := by
    rw [abs_zero, abs_of_pos (show (0 : K) < 8 / 5 by norm_num), max_eq_left (show (0 : K) ≤ 8 / 5 by norm_num), max_eq_right (show (0 : K) ≤ 8 / 5 by norm_num)]
    exact big
  rw [if_neg em]
  have enn : Vec.normalize _root_.id sqrt (⟨0, 8 / 5, 0⟩ : Vec K) = ⟨0, 1, 0⟩ := by
    norm_num [Vec.normalize, Vec.scale, Vec.norm, Vec.norm2, Vec.dot, hsq]
  rw [enn]
  have ea : Vec.pointCross _root_.id sqrt (⟨0, 1, 0⟩ : Vec K) ⟨0, 0, 1⟩ = ⟨2, 0, 0⟩ := by
    norm_num [Vec.pointCross, Vec.cross, Vec.add, Vec.sub]
  have eb : Vec.pointCross _root_.id sqrt (⟨0, 1, 0⟩ : Vec K) ⟨4 / 5, 0, 3 / 5⟩ = ⟨6 / 5, 0, -(8 / 5)⟩ := by
    norm_num [Vec.pointCross, Vec.cross, Vec.add, Vec.sub]
  have es : Vec.scale _root_.id (⟨0, 8 / 5, 0⟩ : Vec K) (-1) = ⟨0, -(8 / 5), 0⟩ := by norm_num [Vec.scale]
  rw [ea, eb, es]
  have ra : clipDestination _root_.id neg (sqrt 2) (⟨4 / 5, 0, 3 / 5⟩ : Vec K) ⟨0, 0, 1⟩ ⟨0, -(8 / 5), 0⟩ ⟨6 / 5, 0, -(8 / 5)⟩ ⟨2, 0, 0⟩ 1 = (⟨0, 0⟩, 0) := by
    unfold clipDestination
    rw [if_pos ⟨by norm_num, by norm_num; norm_num at hm; exact hm.1⟩]
    norm_num
  have ex : exitAxis _root_.id neg (⟨0, -(8 / 5), 0⟩ : Vec K) = .U := by
    unfold exitAxis intersectsOppositeEdges
    norm_num [abs_div]
  have rb : clipDestination _root_.id neg (sqrt 2) (⟨0, 0, 1⟩ : Vec K) ⟨4 / 5, 0, 3 / 5⟩ ⟨0, -(8 / 5), 0⟩ ⟨2, 0, 0⟩ ⟨6 / 5, 0, -(8 / 5)⟩ 1 = (⟨4 / 3, 0⟩, 2) := by
    unfold clipDestination
    rw [if_neg ?_, ex]
    · norm_num [exitPoint, R2.Point.smul, Vec.sub, Vec.dot]
    · rintro ⟨-, h⟩
      have e43 : |(4 / 3 : K)| = 4 / 3 := abs_of_pos (by norm_num)
      norm_num [e43] at h
      norm_num at hm
      linarith
  rw [ra, rb]
  rfl

end Verif
