import Verif.Properties.Vector
import Verif.Properties.ChordRound

/-!
# Angles on the unit sphere

The spherical triangle inequality, points at given angles along a great circle, and the chord of an angle.
-/

namespace Verif
open Spec

namespace Spec

/-- The angle between two unit vectors. -/
noncomputable def ang (p q : Vec ℝ) : ℝ := Real.arccos (dot p q)

/-- A unit vector. -/
def UnitV (p : Vec ℝ) : Prop := dot p p = 1

/-- A linear combination of two vectors. -/
def lin (s : ℝ) (p : Vec ℝ) (t : ℝ) (q : Vec ℝ) : Vec ℝ := ⟨s * p.x + t * q.x, s * p.y + t * q.y, s * p.z + t * q.z⟩

end Spec

theorem dot_comm (p q : Vec ℝ) : dot p q = dot q p := by unfold dot; ring

theorem dot_lin (s t : ℝ) (p q r : Vec ℝ) : dot (lin s p t q) r = s * dot p r + t * dot q r := by simp only [dot, lin]; ring

theorem dot_le_one {p q : Vec ℝ} (hp : UnitV p) (hq : UnitV q) : -1 ≤ dot p q ∧ dot p q ≤ 1 := by
  have h1 : 0 ≤ dot (lin 1 p 1 q) (lin 1 p 1 q) := dot_self_nonneg _
  have h2 : 0 ≤ dot (lin 1 p (-1) q) (lin 1 p (-1) q) := dot_self_nonneg _
  have e1 : dot (lin 1 p 1 q) (lin 1 p 1 q) = dot p p + 2 * dot p q + dot q q := by simp only [dot, lin]; ring
  have e2 : dot (lin 1 p (-1) q) (lin 1 p (-1) q) = dot p p - 2 * dot p q + dot q q := by simp only [dot, lin]; ring
  rw [e1] at h1; rw [e2] at h2
  unfold UnitV at hp hq
  constructor <;> linarith

theorem ang_nonneg (p q : Vec ℝ) : 0 ≤ ang p q := Real.arccos_nonneg _
theorem ang_le_pi (p q : Vec ℝ) : ang p q ≤ Real.pi := Real.arccos_le_pi _
theorem ang_comm (p q : Vec ℝ) : ang p q = ang q p := by unfold ang; rw [dot_comm]

theorem cos_ang {p q : Vec ℝ} (hp : UnitV p) (hq : UnitV q) : Real.cos (ang p q) = dot p q :=
  Real.cos_arccos (dot_le_one hp hq).1 (dot_le_one hp hq).2

theorem ang_of_cos {p q : Vec ℝ} {t : ℝ} (h0 : 0 ≤ t) (h1 : t ≤ Real.pi) (h : dot p q = Real.cos t) : ang p q = t := by
  unfold ang; rw [h, Real.arccos_cos h0 h1]

/-- Every unit vector is at its angle from another one, in some perpendicular direction. -/
theorem exists_dir {c q : Vec ℝ} (hc : UnitV c) (hq : UnitV q) :
    ∃ e, UnitV e ∧ dot c e = 0 ∧ q = lin (Real.cos (ang c q)) c (Real.sin (ang c q)) e := by
  have hcos := cos_ang hc hq
  have hs := Real.sin_sq_add_cos_sq (ang c q)
  by_cases h : Real.sin (ang c q) = 0
  · have hz : ¬ IsZero c := by
      rintro ⟨x, y, z⟩
      unfold UnitV dot at hc
      rw [x, y, z] at hc
      norm_num at hc
    obtain ⟨o1, o2⟩ := c74_ortho isSqrt_real hz
    refine ⟨_, o2, by rw [dot_comm]; exact o1, ?_⟩
    rw [h] at hs ⊢
    -- |q - cos c|^2 = 1 - cos^2 = 0
    have e : dot (lin 1 q (-Real.cos (ang c q)) c) (lin 1 q (-Real.cos (ang c q)) c) = 0 := by
      have : dot (lin 1 q (-Real.cos (ang c q)) c) (lin 1 q (-Real.cos (ang c q)) c) = dot q q - 2 * Real.cos (ang c q) * dot c q + Real.cos (ang c q) ^ 2 * dot c c := by
        simp only [dot, lin]; ring
      rw [this, ← hcos, hc, hq]; nlinarith
    unfold dot at e
    have a1 := mul_self_nonneg (lin 1 q (-Real.cos (ang c q)) c).x
    have a2 := mul_self_nonneg (lin 1 q (-Real.cos (ang c q)) c).y
    have a3 := mul_self_nonneg (lin 1 q (-Real.cos (ang c q)) c).z
    have b1 := mul_self_eq_zero.1 (show (lin 1 q (-Real.cos (ang c q)) c).x * (lin 1 q (-Real.cos (ang c q)) c).x = 0 by linarith)
    have b2 := mul_self_eq_zero.1 (show (lin 1 q (-Real.cos (ang c q)) c).y * (lin 1 q (-Real.cos (ang c q)) c).y = 0 by linarith)
    have b3 := mul_self_eq_zero.1 (show (lin 1 q (-Real.cos (ang c q)) c).z * (lin 1 q (-Real.cos (ang c q)) c).z = 0 by linarith)
    simp only [lin] at b1 b2 b3 ⊢
    rcases q with ⟨qx, qy, qz⟩
    simp only [Vec.mk.injEq] at *
    refine ⟨by linarith, by linarith, by linarith⟩
  · refine ⟨smul (1 / Real.sin (ang c q)) (lin 1 q (-Real.cos (ang c q)) c), ?_, ?_, ?_⟩
    · have : dot (smul (1 / Real.sin (ang c q)) (lin 1 q (-Real.cos (ang c q)) c)) (smul (1 / Real.sin (ang c q)) (lin 1 q (-Real.cos (ang c q)) c)) =
          (dot q q - 2 * Real.cos (ang c q) * dot c q + Real.cos (ang c q) ^ 2 * dot c c) / Real.sin (ang c q) ^ 2 := by
        simp only [dot, lin, smul]; field_simp; ring
      unfold UnitV
      rw [this, ← hcos, hc, hq, div_eq_one_iff_eq (pow_ne_zero 2 h)]
      linarith
    · have : dot c (smul (1 / Real.sin (ang c q)) (lin 1 q (-Real.cos (ang c q)) c)) = (dot c q - Real.cos (ang c q) * dot c c) / Real.sin (ang c q) := by
        simp only [dot, lin, smul]; field_simp; ring
      rw [this, ← hcos, hc, mul_one, sub_self, zero_div]
    · rcases q with ⟨qx, qy, qz⟩
      simp only [lin, smul, Vec.mk.injEq]
      generalize ang c ⟨qx, qy, qz⟩ = θ at *
      refine ⟨?_, ?_, ?_⟩ <;> field_simp <;> ring

/-- The triangle inequality on the sphere. -/
theorem ang_triangle {p q r : Vec ℝ} (hp : UnitV p) (hq : UnitV q) (hr : UnitV r) : ang p r ≤ ang p q + ang q r := by
  by_cases hle : ang p q + ang q r ≤ Real.pi
  · obtain ⟨e, e1, e2, e3⟩ := exists_dir hq hp
    obtain ⟨f, f1, f2, f3⟩ := exists_dir hq hr
    rw [ang_comm q p] at e3
    have h := (dot_le_one e1 f1).1
    have ha := Real.sin_nonneg_of_nonneg_of_le_pi (ang_nonneg p q) (ang_le_pi p q)
    have hb := Real.sin_nonneg_of_nonneg_of_le_pi (ang_nonneg q r) (ang_le_pi q r)
    have hd : dot p r = Real.cos (ang p q) * Real.cos (ang q r) * dot q q + Real.cos (ang p q) * Real.sin (ang q r) * dot q f +
        Real.sin (ang p q) * Real.cos (ang q r) * dot q e + Real.sin (ang p q) * Real.sin (ang q r) * dot e f := by
      conv_lhs => rw [e3, f3]
      simp only [dot, lin]; ring
    rw [e2, f2, hq] at hd
    have hc : Real.cos (ang p q + ang q r) ≤ dot p r := by
      rw [Real.cos_add, hd]
      nlinarith [mul_nonneg ha hb]
    unfold ang at hc hle ⊢
    calc Real.arccos (dot p r) ≤ Real.arccos (Real.cos (Real.arccos (dot p q) + Real.arccos (dot q r))) := Real.arccos_le_arccos hc
      _ = _ := Real.arccos_cos (add_nonneg (Real.arccos_nonneg _) (Real.arccos_nonneg _)) hle
  · exact (ang_le_pi p r).trans (not_le.1 hle).le

/-- There is a point at any angle from `c`, on the great circle through `q`. -/
theorem exists_point {c q : Vec ℝ} (hc : UnitV c) (hq : UnitV q) {t : ℝ} (h0 : 0 ≤ t) (h1 : t ≤ Real.pi) :
    ∃ p, UnitV p ∧ ang c p = t ∧ ang p q = |t - ang c q| := by
  obtain ⟨e, e1, e2, e3⟩ := exists_dir hc hq
  have a0 := ang_nonneg c q
  have a1 := ang_le_pi c q
  refine ⟨lin (Real.cos t) c (Real.sin t) e, ?_, ?_, ?_⟩
  · have : dot (lin (Real.cos t) c (Real.sin t) e) (lin (Real.cos t) c (Real.sin t) e) = Real.cos t ^ 2 * dot c c + 2 * Real.cos t * Real.sin t * dot c e + Real.sin t ^ 2 * dot e e := by
      simp only [dot, lin]; ring
    unfold UnitV
    rw [this, e1, e2, hc]
    nlinarith [Real.sin_sq_add_cos_sq t]
  · apply ang_of_cos h0 h1
    rw [dot_comm, dot_lin, dot_comm e c, e2, hc]; ring
  · apply ang_of_cos (abs_nonneg _) (by rw [abs_le]; constructor <;> linarith)
    rw [Real.cos_abs, Real.cos_sub]
    generalize ang c q = θ at *
    rw [e3]
    have : dot (lin (Real.cos t) c (Real.sin t) e) (lin (Real.cos θ) c (Real.sin θ) e) = Real.cos t * Real.cos θ * dot c c + (Real.cos t * Real.sin θ + Real.sin t * Real.cos θ) * dot c e + Real.sin t * Real.sin θ * dot e e := by
      simp only [dot, lin]; ring
    rw [this, e1, e2, hc]; ring

theorem dist2_ang {p q : Vec ℝ} (hp : UnitV p) (hq : UnitV q) : dot (diff p q) (diff p q) = chordOf (ang p q) := by
  have e : dot (diff p q) (diff p q) = dot p p - 2 * dot p q + dot q q := by simp only [dot, diff]; ring
  rw [e, hp, hq, ← cos_ang hp hq]
  unfold chordOf
  have : ang p q = 2 * (ang p q / 2) := by ring
  conv_lhs => rw [this, Real.cos_two_mul]
  nlinarith [Real.sin_sq_add_cos_sq (ang p q / 2)]

/-- In exact arithmetic the chord angle of unit vectors is the chord of their angle. -/
theorem chordAngle_ang {p q : Vec ℝ} (hp : UnitV p) (hq : UnitV q) : Vec.chordAngle _root_.id p q = chordOf (ang p q) := by
  rw [← dist2_ang hp hq]
  have : Vec.chordAngle (_root_.id : ℝ → ℝ) p q = min 4 (dot (diff p q) (diff p q)) := rfl
  rw [this, min_eq_right]
  rw [dist2_ang hp hq]
  exact chordOf_range.2

end Verif
