import Verif.Properties.EdgeDist
import Mathlib.Analysis.SpecialFunctions.Complex.Arg

/-!
# Points along an edge: C83

`interpolate` and `interpolate_at_distance` of edgeutil.rs in exact (real) arithmetic.
-/

namespace Verif
open Spec EdgeUtil

namespace Spec

/-- `atan2` gives the polar angle of a point of the upper half plane. -/
def IsAtan2 (atan2 : ℝ → ℝ → ℝ) : Prop := ∀ r t, 0 < r → 0 ≤ t → t ≤ Real.pi → atan2 (r * Real.sin t) (r * Real.cos t) = t

end Spec

/-- The polar angle of complex numbers is such a function. -/
theorem isAtan2_arg : IsAtan2 (fun y x => Complex.arg ⟨x, y⟩) := by
  intro r t hr h0 h1
  have := Complex.arg_mul_cos_add_sin_mul_I hr (θ := t) ⟨by linarith [Real.pi_pos], h1⟩
  refine Eq.trans ?_ this
  refine congrArg Complex.arg ?_
  apply Complex.ext <;> simp [← Complex.ofReal_cos, ← Complex.ofReal_sin]

theorem normalize_unit {p : Vec ℝ} (hp : UnitV p) : Vec.normalize _root_.id Real.sqrt p = p := by
  obtain ⟨t, t0, t1, t2⟩ := c74_normalize isSqrt_real (unit_ne hp)
  rw [t1] at t2
  have l1 : dot (smul t p) (smul t p) = t ^ 2 * dot p p := by simp only [dot, smul]; ring
  rw [l1, hp, mul_one] at t2
  have : t = 1 := by nlinarith
  rw [t1, this]
  simp [smul]

/-- The direction in which `interpolate_at_distance` leaves `a`. -/
theorem interpolate_dir {a b : Vec ℝ} (ha : UnitV a) (hb : UnitV b) :
    ∃ e, UnitV e ∧ dot a e = 0 ∧ b = lin (Real.cos (ang a b)) a (Real.sin (ang a b)) e ∧
      ∀ ax, interpolateAtDistance _root_.id Real.sqrt Real.sin Real.cos ax a b = lin (Real.cos ax) a (Real.sin ax) e := by
  obtain ⟨cz, ca, cb, c1, c2⟩ := c74_pointCross isSqrt_real (unit_ne ha) (p := a) (q := b) (by rw [show dot a a = 1 from ha, show dot b b = 1 from hb])
  set n := Vec.pointCross _root_.id Real.sqrt a b with hn
  have n0 : 0 < dot n n := by
    rcases (dot_self_nonneg n).lt_or_eq with h | h
    · exact h
    · exfalso
      apply cz
      unfold dot at h
      have := mul_self_nonneg n.x
      have := mul_self_nonneg n.y
      have := mul_self_nonneg n.z
      exact ⟨mul_self_eq_zero.1 (by linarith), mul_self_eq_zero.1 (by linarith), mul_self_eq_zero.1 (by linarith)⟩
  have T1 : dot (cross n a) (cross n a) = dot n n := by
    have : dot (cross n a) (cross n a) = dot n n * dot a a - dot n a ^ 2 := by simp only [dot, cross]; ring
    rw [this, ha, ca]; ring
  have s0 := Real.sqrt_pos.2 n0
  have s1 := Real.mul_self_sqrt n0.le
  have hT : Vec.norm _root_.id Real.sqrt (Vec.cross _root_.id n a) = Real.sqrt (dot n n) := by rw [← T1]; rfl
  have eu : UnitV (smul (1 / Real.sqrt (dot n n)) (cross n a)) := by
    unfold UnitV
    have : dot (smul (1 / Real.sqrt (dot n n)) (cross n a)) (smul (1 / Real.sqrt (dot n n)) (cross n a)) =
        (1 / Real.sqrt (dot n n)) ^ 2 * dot (cross n a) (cross n a) := by simp only [dot, smul]; ring
    rw [this, T1, div_pow, Real.sq_sqrt n0.le]
    field_simp
  have eo : dot a (smul (1 / Real.sqrt (dot n n)) (cross n a)) = 0 := by simp only [dot, smul, cross]; ring
  refine ⟨smul (1 / Real.sqrt (dot n n)) (cross n a), eu, eo, ?_, ?_⟩
  · rw [cos_ang ha hb]
    have sn : Real.sin (ang a b) = Real.sqrt (1 - dot a b ^ 2) := by unfold ang; rw [Real.sin_arccos]
    rw [sn]
    by_cases hz : IsZero (cross a b)
    · have hk : dot a b ^ 2 = 1 := by
        have : dot (cross a b) (cross a b) = dot a a * dot b b - dot a b ^ 2 := by simp only [dot, cross]; ring
        rw [ha, hb] at this
        have h0 : dot (cross a b) (cross a b) = 0 := by
          obtain ⟨h1, h2, h3⟩ := hz
          unfold dot; rw [h1, h2, h3]; ring
        linarith
      rw [hk, sub_self, Real.sqrt_zero]
      rcases (c2 hz).1 with h | h
      · rw [h, show dot a a = 1 from ha]; simp [lin]
      · have : dot a b = -1 := by
          rw [h]
          have : dot a (smul (-1) a) = -dot a a := by simp only [dot, smul]; ring
          rw [this, ha]
        rw [this, h]
        simp [lin, smul]
    · have en := c1 hz
      have w : dot n n = 4 * (1 - dot a b ^ 2) := by
        have : dot (smul 2 (cross a b)) (smul 2 (cross a b)) = 4 * (dot a a * dot b b - dot a b ^ 2) := by simp only [dot, cross, smul]; ring
        rw [en, this, ha, hb]; ring
      have w0 : 0 < 1 - dot a b ^ 2 := by rw [w] at n0; linarith
      have r0 := Real.sqrt_pos.2 w0
      have er : Real.sqrt (dot n n) = 2 * Real.sqrt (1 - dot a b ^ 2) := by
        rw [w, Real.sqrt_mul (by norm_num), show (4 : ℝ) = 2 * 2 by norm_num, Real.sqrt_mul_self (by norm_num)]
      have ec : smul 1 (cross n a) = lin 2 b (-(2 * dot a b)) a := by
        rw [en]
        have : smul 1 (cross (smul 2 (cross a b)) a) = lin (2 * dot a a) b (-(2 * dot a b)) a := by
          simp only [smul, cross, lin, dot, Vec.mk.injEq]
          refine ⟨?_, ?_, ?_⟩ <;> ring
        rw [this, show dot a a = 1 from ha, mul_one]
      have e1 : ∀ y, Real.sqrt (1 - dot a b ^ 2) * (1 / (2 * Real.sqrt (1 - dot a b ^ 2)) * y) = y / 2 := by intro y; field_simp
      rw [er]
      simp only [smul, lin, one_mul, Vec.mk.injEq] at ec ⊢
      obtain ⟨b1, b2, b3⟩ := b
      simp only [Vec.mk.injEq]
      rw [e1, e1, e1]
      refine ⟨by linarith [ec.1], by linarith [ec.2.1], by linarith [ec.2.2]⟩
  · intro ax
    unfold interpolateAtDistance
    dsimp only
    rw [← hn, hT]
    have e1 : Vec.add _root_.id (Vec.scale _root_.id a (_root_.id (Real.cos ax)))
        (Vec.scale _root_.id (Vec.cross _root_.id n a) (_root_.id (_root_.id (Real.sin ax) / Real.sqrt (dot n n)))) =
        lin (Real.cos ax) a (Real.sin ax) (smul (1 / Real.sqrt (dot n n)) (cross n a)) := by
      simp only [Vec.add, Vec.scale, _root_.id, lin, smul, Vec.mk.injEq]
      have f : Vec.cross _root_.id n a = cross n a := rfl
      rw [f]
      refine ⟨?_, ?_, ?_⟩ <;> ring
    rw [e1]
    refine normalize_unit ?_
    unfold UnitV
    rw [lin_unit ha eu, eo]
    linarith [Real.sin_sq_add_cos_sq ax]

/-- **C83.** In exact arithmetic `interpolate_at_distance` is the point at the given distance from `a` towards (and possibly beyond) `b`. -/
theorem c83_interpolateAt {a b : Vec ℝ} (ha : UnitV a) (hb : UnitV b) {ax : ℝ} (h0 : 0 ≤ ax) (h1 : ax ≤ Real.pi) :
    UnitV (interpolateAtDistance _root_.id Real.sqrt Real.sin Real.cos ax a b) ∧
    ang a (interpolateAtDistance _root_.id Real.sqrt Real.sin Real.cos ax a b) = ax ∧
    ang (interpolateAtDistance _root_.id Real.sqrt Real.sin Real.cos ax a b) b = |ang a b - ax| := by
  obtain ⟨e, eu, eo, hbe, hX⟩ := interpolate_dir ha hb
  rw [hX]
  have a0 := ang_nonneg a b
  have a1 := ang_le_pi a b
  refine ⟨?_, ?_, ?_⟩
  · unfold UnitV
    rw [lin_unit ha eu, eo]
    linarith [Real.sin_sq_add_cos_sq ax]
  · refine ang_of_cos h0 h1 ?_
    rw [(lin_dots ha eu _ _ a).2.2, eo, ha]; ring
  · refine ang_of_cos (abs_nonneg _) (by rw [abs_le]; constructor <;> linarith) ?_
    rw [Real.cos_abs, Real.cos_sub]
    have e1 : dot (lin (Real.cos ax) a (Real.sin ax) e) b = dot (lin (Real.cos ax) a (Real.sin ax) e) (lin (Real.cos (ang a b)) a (Real.sin (ang a b)) e) := by rw [← hbe]
    have e2 : dot (lin (Real.cos ax) a (Real.sin ax) e) (lin (Real.cos (ang a b)) a (Real.sin (ang a b)) e) =
        Real.cos ax * Real.cos (ang a b) * dot a a + (Real.cos ax * Real.sin (ang a b) + Real.sin ax * Real.cos (ang a b)) * dot a e +
          Real.sin ax * Real.sin (ang a b) * dot e e := by simp only [dot, lin]; ring
    rw [e1, e2, ha, eu, eo]
    ring

/-- The angle between unit vectors. -/
theorem angle_exact {atan2 : ℝ → ℝ → ℝ} (hat : IsAtan2 atan2) {a b : Vec ℝ} (ha : UnitV a) (hb : UnitV b) :
    Vec.angle _root_.id Real.sqrt atan2 a b = ang a b := by
  have e : Vec.angle _root_.id Real.sqrt atan2 a b = atan2 (Real.sqrt (dot (cross a b) (cross a b))) (dot a b) := rfl
  have w : dot (cross a b) (cross a b) = 1 - dot a b ^ 2 := by
    have : dot (cross a b) (cross a b) = dot a a * dot b b - dot a b ^ 2 := by simp only [dot, cross]; ring
    rw [this, ha, hb]; ring
  have sn : Real.sin (ang a b) = Real.sqrt (1 - dot a b ^ 2) := by unfold ang; rw [Real.sin_arccos]
  rw [e, w, ← sn, ← cos_ang ha hb]
  have := hat 1 (ang a b) one_pos (ang_nonneg _ _) (ang_le_pi _ _)
  rwa [one_mul, one_mul] at this

/-- **C83.** In exact arithmetic `interpolate` divides the distance from `a` to `b` in the given ratio; for a fraction beyond 1 (as long as the
distance from `a` does not exceed π) the point is beyond `b`. -/
theorem c83_interpolate {atan2 : ℝ → ℝ → ℝ} (hat : IsAtan2 atan2) {a b : Vec ℝ} (ha : UnitV a) (hb : UnitV b) {t : ℝ} (h0 : 0 ≤ t) (h1 : t * ang a b ≤ Real.pi) :
    UnitV (interpolate _root_.id Real.sqrt atan2 Real.sin Real.cos t a b) ∧
    ang a (interpolate _root_.id Real.sqrt atan2 Real.sin Real.cos t a b) = t * ang a b ∧
    ang (interpolate _root_.id Real.sqrt atan2 Real.sin Real.cos t a b) b = |1 - t| * ang a b := by
  have self : ∀ {p : Vec ℝ}, UnitV p → ang p p = 0 := fun {p} hp => ang_of_cos le_rfl Real.pi_pos.le (by rw [hp, Real.cos_zero])
  have a0 := ang_nonneg a b
  unfold interpolate
  split_ifs with e0 e1
  · rw [e0]
    exact ⟨ha, by rw [self ha, zero_mul], by rw [sub_zero, abs_one, one_mul]⟩
  · rw [e1]
    exact ⟨hb, by rw [one_mul], by rw [self hb, sub_self, abs_zero, zero_mul]⟩
  · rw [angle_exact hat ha hb]
    obtain ⟨u, v, w⟩ := c83_interpolateAt ha hb (ax := t * ang a b) (by positivity) h1
    refine ⟨u, v, ?_⟩
    rw [show _root_.id (t * ang a b) = t * ang a b from rfl, w, show ang a b - t * ang a b = (1 - t) * ang a b by ring, abs_mul, abs_of_nonneg a0]

/-- **C83.** For a fraction between 0 and 1 the point is on the edge. -/
theorem c83_onEdge {atan2 : ℝ → ℝ → ℝ} (hat : IsAtan2 atan2) {a b : Vec ℝ} (ha : UnitV a) (hb : UnitV b) (hab : b ≠ smul (-1) a) {t : ℝ} (h0 : 0 ≤ t) (h1 : t ≤ 1) :
    OnEdge a b (interpolate _root_.id Real.sqrt atan2 Real.sin Real.cos t a b) := by
  have a0 := ang_nonneg a b
  have ap : ang a b < Real.pi := by
    refine lt_of_le_of_ne (ang_le_pi a b) fun h => ?_
    have := cos_ang ha hb
    rw [h, Real.cos_pi] at this
    linarith [not_anti ha hb hab]
  have hu := (c83_interpolate hat ha hb h0 (by nlinarith [Real.pi_pos])).1
  refine ⟨hu, ?_⟩
  unfold interpolate
  split_ifs with e0 e1
  · exact (onEdge_left ha).2
  · exact (onEdge_right hb).2
  · rw [angle_exact hat ha hb, show _root_.id (t * ang a b) = t * ang a b from rfl]
    obtain ⟨e, eu, eo, hbe, hX⟩ := interpolate_dir ha hb
    rw [hX]
    rcases a0.lt_or_eq with hp | hp
    · have sp := Real.sin_pos_of_pos_of_lt_pi hp ap
      refine ⟨Real.sin (ang a b - t * ang a b) / Real.sin (ang a b), Real.sin (t * ang a b) / Real.sin (ang a b), ?_, ?_, ?_⟩
      · exact div_nonneg (Real.sin_nonneg_of_nonneg_of_le_pi (by nlinarith) (by nlinarith)) sp.le
      · exact div_nonneg (Real.sin_nonneg_of_nonneg_of_le_pi (by nlinarith) (by nlinarith)) sp.le
      · have e2 : ∀ S T : ℝ, lin S a T b = lin S a T (lin (Real.cos (ang a b)) a (Real.sin (ang a b)) e) := fun S T => by rw [← hbe]
        rw [e2]
        have k1 : Real.cos (t * ang a b) = Real.sin (ang a b - t * ang a b) / Real.sin (ang a b) + Real.sin (t * ang a b) / Real.sin (ang a b) * Real.cos (ang a b) := by
          rw [Real.sin_sub]; field_simp; ring
        have k2 : Real.sin (t * ang a b) = Real.sin (t * ang a b) / Real.sin (ang a b) * Real.sin (ang a b) := by field_simp
        generalize Real.sin (ang a b - t * ang a b) / Real.sin (ang a b) = S at *
        generalize Real.sin (t * ang a b) / Real.sin (ang a b) = T at *
        rw [k1, k2]
        simp only [lin, Vec.mk.injEq]
        refine ⟨?_, ?_, ?_⟩ <;> ring
    · rw [← hp]
      refine ⟨1, 0, zero_le_one, le_rfl, ?_⟩
      simp [lin]

example : IsAtan2 (fun y x => Complex.arg ⟨x, y⟩) ∧ (1 / 2 : ℝ) * ang (⟨1, 0, 0⟩ : Vec ℝ) ⟨0, 1, 0⟩ ≤ Real.pi :=
  ⟨isAtan2_arg, by linarith [ang_le_pi (⟨1, 0, 0⟩ : Vec ℝ) ⟨0, 1, 0⟩, ang_nonneg (⟨1, 0, 0⟩ : Vec ℝ) ⟨0, 1, 0⟩]⟩

end Verif
