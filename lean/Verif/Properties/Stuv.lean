import Verif.Model.Stuv
import Mathlib.Analysis.Real.Sqrt
import Mathlib.Tactic.Linarith
import Mathlib.Tactic.Positivity
import Mathlib.Tactic.FieldSimp
import Mathlib.Tactic.Ring
import Mathlib.Tactic.NormNum
import Mathlib.Tactic.LinearCombination
import Mathlib.Tactic.IntervalCases

/-!
# The transformations between (s,t), (u,v) and vectors: C59, C60, C73

The theorems are about any ordered field `K`; where square roots are taken, about any function `sqrt` with the property
`IsSqrt` (for the reals, `Real.sqrt`).
-/

namespace Verif

namespace Spec
variable {K : Type} [Field K] [LinearOrder K]

/-- `sqrt` is the square root of non-negative numbers. -/
def IsSqrt (sqrt : K → K) : Prop := ∀ x, 0 ≤ x → 0 ≤ sqrt x ∧ sqrt x * sqrt x = x

/-- The scalar product. -/
def dot (p q : Vec K) : K := p.x * q.x + p.y * q.y + p.z * q.z

/-- The cross product. -/
def cross (p q : Vec K) : Vec K := ⟨p.y * q.z - p.z * q.y, p.z * q.x - p.x * q.z, p.x * q.y - p.y * q.x⟩

/-- The multiple of a vector. -/
def smul (t : K) (p : Vec K) : Vec K := ⟨t * p.x, t * p.y, t * p.z⟩

end Spec

open Spec
variable {K : Type} [Field K] [LinearOrder K] [IsStrictOrderedRing K]

theorem isSqrt_real : IsSqrt Real.sqrt := fun _ h => ⟨Real.sqrt_nonneg _, Real.mul_self_sqrt h⟩

theorem sqrt_sq {sqrt : K → K} (h : IsSqrt sqrt) {x y : K} (hy : 0 ≤ y) (e : x = y * y) : sqrt x = y := by
  obtain ⟨h1, h2⟩ := h x (by rw [e]; positivity)
  have h3 : (sqrt x - y) * (sqrt x + y) = 0 := by rw [e] at h2 ⊢; linear_combination h2
  rcases mul_eq_zero.1 h3 with h | h
  · linarith
  · have : sqrt x = 0 := by linarith
    have : y = 0 := by linarith
    linarith

theorem stToUV_ge {s : K} (h : 1 / 2 ≤ s) : stToUV _root_.id s = (4 * s * s - 1) / 3 := by
  unfold stToUV
  rw [if_pos h]
  simp only [_root_.id]
  ring

theorem stToUV_lt {s : K} (h : s < 1 / 2) : stToUV _root_.id s = (1 - 4 * (1 - s) * (1 - s)) / 3 := by
  unfold stToUV
  rw [if_neg (not_le.2 h)]
  simp only [_root_.id]
  ring

/-- **C59.** `st_to_uv` is strictly increasing, in exact arithmetic. -/
theorem c59_stToUV_strictMono : StrictMono (stToUV (_root_.id : K → K)) := by
  intro a b h
  rcases le_or_gt (1 / 2) a with ha | ha
  · rw [stToUV_ge ha, stToUV_ge (ha.trans h.le)]
    nlinarith
  · rw [stToUV_lt ha]
    rcases le_or_gt (1 / 2) b with hb | hb
    · rw [stToUV_ge hb]
      nlinarith [mul_self_nonneg (b - 1 / 2), mul_self_nonneg (a - 1 / 2)]
    · rw [stToUV_lt hb]
      nlinarith

/-- **C59.** The values at the ends and in the middle. -/
theorem c59_stToUV_ends : stToUV _root_.id (0 : K) = -1 ∧ stToUV _root_.id (1 / 2 : K) = 0 ∧ stToUV _root_.id (1 : K) = 1 := by
  refine ⟨?_, ?_, ?_⟩
  · rw [stToUV_lt (by norm_num)]; norm_num
  · rw [stToUV_ge (le_refl _)]; norm_num
  · rw [stToUV_ge (by norm_num)]; norm_num

/-- **C59.** `st_to_uv` maps `[0, 1]` into `[-1, 1]`. -/
theorem c59_stToUV_range {s : K} (h0 : 0 ≤ s) (h1 : s ≤ 1) : -1 ≤ stToUV _root_.id s ∧ stToUV _root_.id s ≤ 1 := by
  have h := (c59_stToUV_strictMono (K := K)).monotone
  obtain ⟨e1, _, e2⟩ := c59_stToUV_ends (K := K)
  exact ⟨by rw [← e1]; exact h h0, by rw [← e2]; exact h h1⟩

/-- **C59.** `st_to_uv` is odd about the middle. -/
theorem c59_stToUV_odd (s : K) : stToUV _root_.id (1 - s) = -stToUV _root_.id s := by
  rcases lt_trichotomy s (1 / 2) with h | h | h
  · rw [stToUV_lt h, stToUV_ge (by linarith)]; ring
  · subst h
    have e : (1 : K) - 1 / 2 = 1 / 2 := by norm_num
    rw [e, (c59_stToUV_ends (K := K)).2.1, neg_zero]
  · rw [stToUV_ge h.le, stToUV_lt (by linarith)]; ring

/-- **C59.** `uv_to_st` undoes `st_to_uv`, in exact arithmetic. -/
theorem c59_uvToST_stToUV {sqrt : K → K} (hs : IsSqrt sqrt) (s : K) : uvToST _root_.id sqrt (stToUV _root_.id s) = s := by
  unfold uvToST
  simp only [_root_.id]
  rcases le_or_gt (1 / 2) s with h | h
  · rw [stToUV_ge h, if_pos (by nlinarith), sqrt_sq hs (y := 2 * s) (by linarith) (by ring)]
    ring
  · rw [stToUV_lt h, if_neg (by nlinarith), sqrt_sq hs (y := 2 * (1 - s)) (by linarith) (by ring)]
    ring

/-- **C59.** `st_to_uv` undoes `uv_to_st`, in exact arithmetic. -/
theorem c59_stToUV_uvToST {sqrt : K → K} (hs : IsSqrt sqrt) (u : K) : stToUV _root_.id (uvToST _root_.id sqrt u) = u := by
  unfold uvToST
  simp only [_root_.id]
  by_cases h : u ≥ 0
  · rw [if_pos h]
    obtain ⟨h1, h2⟩ := hs (1 + 3 * u) (by linarith)
    have h3 : 1 ≤ sqrt (1 + 3 * u) := by nlinarith
    rw [stToUV_ge (by linarith)]
    linear_combination h2 / 3
  · rw [if_neg h]
    have h := not_le.1 h
    obtain ⟨h1, h2⟩ := hs (1 - 3 * u) (by linarith)
    have h3 : 1 < sqrt (1 - 3 * u) := by nlinarith
    rw [stToUV_lt (by linarith)]
    linear_combination -h2 / 3

/-- **C59.** With rounding, `st_to_uv` is still (weakly) increasing: for every monotone rounding that is exact at `0`, `1/2`,
`1` and `2`. -/
theorem c59_stToUV_rounded {fl : K → K} (hm : Monotone fl) (f0 : fl 0 = 0) (fh : fl (1 / 2) = 1 / 2) (f1 : fl 1 = 1) (f2 : fl 2 = 2) :
    Monotone (stToUV fl) := by
  have pos : ∀ x, 0 ≤ x → 0 ≤ fl x := fun x hx => by rw [← f0]; exact hm hx
  have k0 : 0 ≤ fl (1 / 3) := pos _ (by norm_num)
  have sq : ∀ x y : K, 0 ≤ x → x ≤ y → fl (fl (4 * x) * x) ≤ fl (fl (4 * y) * y) := by
    intro x y hx hxy
    exact hm (mul_le_mul (hm (by linarith)) hxy hx (pos _ (by linarith)))
  have big : ∀ x : K, 1 / 2 ≤ x → 1 ≤ fl (fl (4 * x) * x) := by
    intro x hx
    have h5 : 2 ≤ fl (4 * x) := by rw [← f2]; exact hm (by linarith)
    rw [← f1]
    exact hm (by nlinarith)
  have half : ∀ x : K, x < 1 / 2 → 1 / 2 ≤ fl (1 - x) := by
    intro x hx
    rw [← fh]
    exact hm (by linarith)
  intro a b h
  unfold stToUV
  rcases le_or_gt (1 / 2) a with ha | ha
  · rw [if_pos ha, if_pos (ha.trans h)]
    refine hm (mul_le_mul_of_nonneg_left (hm ?_) k0)
    have := sq a b (by linarith) h
    linarith
  · rw [if_neg (not_le.2 ha)]
    rcases le_or_gt (1 / 2) b with hb | hb
    · rw [if_pos hb]
      refine hm (mul_le_mul_of_nonneg_left (hm ?_) k0)
      have h1 := big _ (half a ha)
      have h2 := big _ hb
      linarith
    · rw [if_neg (not_le.2 hb)]
      refine hm (mul_le_mul_of_nonneg_left (hm ?_) k0)
      have hb2 := half b hb
      have := sq (fl (1 - b)) (fl (1 - a)) (by linarith) (hm (by linarith))
      linarith

/-- **C59.** With rounding, `uv_to_st` is still (weakly) increasing: for every monotone rounding that is exact at `0`, `1/2` and `1`,
and every monotone square root with `sqrt 1 = 1`. -/
theorem c59_uvToST_rounded {fl sqrt : K → K} (hm : Monotone fl) (f0 : fl 0 = 0) (fh : fl (1 / 2) = 1 / 2) (f1 : fl 1 = 1)
    (hq : Monotone sqrt) (q1 : sqrt 1 = 1) : Monotone (uvToST fl sqrt) := by
  have key : ∀ x y : K, 0 ≤ x → x ≤ y → fl (1 / 2 * fl (sqrt (fl (1 + fl (3 * x))))) ≤ fl (1 / 2 * fl (sqrt (fl (1 + fl (3 * y))))) := by
    intro x y hx hxy
    have h1 : fl (3 * x) ≤ fl (3 * y) := hm (by linarith)
    have h2 : fl (sqrt (fl (1 + fl (3 * x)))) ≤ fl (sqrt (fl (1 + fl (3 * y)))) := hm (hq (hm (by linarith)))
    exact hm (by linarith)
  have big : ∀ x : K, 0 ≤ x → 1 / 2 ≤ fl (1 / 2 * fl (sqrt (fl (1 + x)))) := by
    intro x hx
    have h1 : 1 ≤ fl (1 + x) := f1.symm.le.trans (hm (by linarith))
    have h2 : 1 ≤ fl (sqrt (fl (1 + x))) := f1.symm.le.trans (hm (q1.symm.le.trans (hq h1)))
    exact fh.symm.le.trans (hm (by linarith))
  have npos : ∀ x, x ≤ 0 → fl x ≤ 0 := fun x hx => by rw [← f0]; exact hm hx
  intro a b h
  unfold uvToST
  by_cases ha : a ≥ 0
  · rw [if_pos ha, if_pos (le_trans ha h)]
    exact key a b ha h
  · rw [if_neg ha]
    have ha' := not_le.1 ha
    have h3 : 0 ≤ -fl (3 * a) := by have := npos (3 * a) (by linarith); linarith
    have hA := big _ h3
    rw [← sub_eq_add_neg] at hA
    by_cases hb : b ≥ 0
    · rw [if_pos hb]
      have hB := big (fl (3 * b)) (by rw [← f0]; exact hm (by linarith))
      refine le_trans ((hm ?_).trans fh.le) hB
      linarith
    · rw [if_neg hb]
      have h1 : fl (3 * a) ≤ fl (3 * b) := hm (by linarith)
      have h2 : fl (sqrt (fl (1 - fl (3 * b)))) ≤ fl (sqrt (fl (1 - fl (3 * a)))) := hm (hq (hm (by linarith)))
      have h4 : fl (1 / 2 * fl (sqrt (fl (1 - fl (3 * b))))) ≤ fl (1 / 2 * fl (sqrt (fl (1 - fl (3 * a))))) := hm (by linarith)
      exact hm (by linarith)

/-! ## C60: the projection to a cube face -/

/-- **C60.** The vector of a point strictly inside a face has that face. -/
theorem c60_face {f : Nat} (hf : f < 6) {u v : K} (hu : |u| < 1) (hv : |v| < 1) : ∃ r, faceUVtoXYZ f u v = some r ∧ vecFace r = f := by
  have hu' := hu
  rw [← abs_neg] at hu'
  have hv' := hv
  rw [← abs_neg] at hv'
  interval_cases f <;> refine ⟨_, rfl, ?_⟩ <;> unfold vecFace <;> dsimp only <;> simp only [abs_neg, abs_one, gt_iff_lt] <;>
    grind

/-- **C60.** Its `(u, v)` coordinates are the rounded ones: the same, if `u` and `v` are representable. -/
theorem c60_uv (fl : K → K) {f : Nat} {u v : K} {r : Vec K} (h : faceUVtoXYZ f u v = some r) :
    validFaceXYZtoUV fl f r = some (fl u, fl v) := by
  unfold faceUVtoXYZ at h
  split at h <;> simp only [Option.some.injEq, reduceCtorEq] at h <;> subst h <;> simp [validFaceXYZtoUV]

/-- **C60.** `xyz_to_face_uv` undoes `face_uv_to_xyz` strictly inside a face. -/
theorem c60_roundtrip {fl : K → K} {f : Nat} (hf : f < 6) {u v : K} (hu : |u| < 1) (hv : |v| < 1) (eu : fl u = u) (ev : fl v = v) :
    ∃ r, faceUVtoXYZ f u v = some r ∧ xyzToFaceUV fl r = some (f, u, v) := by
  obtain ⟨r, h1, h2⟩ := c60_face hf hu hv
  refine ⟨r, h1, ?_⟩
  unfold xyzToFaceUV
  simp only [h2, c60_uv fl h1, eu, ev, Option.bind_eq_bind, Option.bind_some]

/-- The face of a vector in terms of its coordinates. -/
theorem vecFace_cases (r : Vec K) (h : ¬ (r.x = 0 ∧ r.y = 0 ∧ r.z = 0)) :
    (vecFace r = 0 ∧ 0 < r.x ∧ |r.y| ≤ |r.x| ∧ |r.z| ≤ |r.x|) ∨ (vecFace r = 1 ∧ 0 < r.y ∧ |r.x| ≤ |r.y| ∧ |r.z| ≤ |r.y|) ∨
    (vecFace r = 2 ∧ 0 < r.z ∧ |r.x| ≤ |r.z| ∧ |r.y| ≤ |r.z|) ∨ (vecFace r = 3 ∧ r.x < 0 ∧ |r.y| ≤ |r.x| ∧ |r.z| ≤ |r.x|) ∨
    (vecFace r = 4 ∧ r.y < 0 ∧ |r.x| ≤ |r.y| ∧ |r.z| ≤ |r.y|) ∨ (vecFace r = 5 ∧ r.z < 0 ∧ |r.x| ≤ |r.z| ∧ |r.y| ≤ |r.z|) := by
  obtain ⟨x, y, z⟩ := r
  unfold vecFace
  dsimp only at *
  rcases abs_cases x with ⟨hx, hx'⟩ | ⟨hx, hx'⟩ <;> rcases abs_cases y with ⟨hy, hy'⟩ | ⟨hy, hy'⟩ <;>
    rcases abs_cases z with ⟨hz, hz'⟩ | ⟨hz, hz'⟩ <;> grind

/-- **C60.** Every non-zero vector has a face and coordinates in `[-1, 1]`, for every monotone rounding that is exact at `1` and `-1`. -/
theorem c60_range {fl : K → K} (hm : Monotone fl) (f1 : fl 1 = 1) (g1 : fl (-1) = -1) {r : Vec K} (h : ¬ (r.x = 0 ∧ r.y = 0 ∧ r.z = 0)) :
    ∃ f u v, xyzToFaceUV fl r = some (f, u, v) ∧ f < 6 ∧ -1 ≤ u ∧ u ≤ 1 ∧ -1 ≤ v ∧ v ≤ 1 := by
  have key : ∀ a b : K, b ≠ 0 → |a| ≤ |b| → -1 ≤ fl (a / b) ∧ fl (a / b) ≤ 1 := by
    intro a b hb hab
    have h2 : |a / b| ≤ 1 := by rw [abs_div]; exact div_le_one_of_le₀ hab (abs_nonneg _)
    rw [abs_le] at h2
    exact ⟨g1.symm.le.trans (hm h2.1), (hm h2.2).trans f1.le⟩
  unfold xyzToFaceUV
  rcases vecFace_cases r h with ⟨e, h1, h2, h3⟩ | ⟨e, h1, h2, h3⟩ | ⟨e, h1, h2, h3⟩ | ⟨e, h1, h2, h3⟩ | ⟨e, h1, h2, h3⟩ | ⟨e, h1, h2, h3⟩ <;>
    simp only [e, validFaceXYZtoUV, Option.bind_eq_bind, Option.bind_some] <;> refine ⟨_, _, _, rfl, by norm_num, ?_⟩ <;>
    refine ⟨(key _ _ (by first | exact h1.ne' | exact h1.ne) (by simpa only [abs_neg] using (by assumption))).1,
      (key _ _ (by first | exact h1.ne' | exact h1.ne) (by simpa only [abs_neg] using (by assumption))).2,
      (key _ _ (by first | exact h1.ne' | exact h1.ne) (by simpa only [abs_neg] using (by assumption))).1,
      (key _ _ (by first | exact h1.ne' | exact h1.ne) (by simpa only [abs_neg] using (by assumption))).2⟩

/-- **C60.** In exact arithmetic every non-zero vector is a positive multiple of `face_uv_to_xyz` of its face and coordinates. -/
theorem c60_projection {r : Vec K} (h : ¬ (r.x = 0 ∧ r.y = 0 ∧ r.z = 0)) :
    ∃ f u v w t, xyzToFaceUV _root_.id r = some (f, u, v) ∧ faceUVtoXYZ f u v = some w ∧ 0 < t ∧ r = smul t w := by
  obtain ⟨x, y, z⟩ := r
  unfold xyzToFaceUV
  rcases vecFace_cases _ h with ⟨e, h1, h2, h3⟩ | ⟨e, h1, h2, h3⟩ | ⟨e, h1, h2, h3⟩ | ⟨e, h1, h2, h3⟩ | ⟨e, h1, h2, h3⟩ | ⟨e, h1, h2, h3⟩ <;>
    simp only [e, validFaceXYZtoUV, Option.bind_eq_bind, Option.bind_some, _root_.id] <;> dsimp only at h1 h2 h3
  · exact ⟨_, _, _, _, x, rfl, rfl, h1, by simp only [smul, Vec.mk.injEq]; refine ⟨?_, ?_, ?_⟩ <;> field_simp⟩
  · exact ⟨_, _, _, _, y, rfl, rfl, h1, by simp only [smul, Vec.mk.injEq]; refine ⟨?_, ?_, ?_⟩ <;> field_simp⟩
  · exact ⟨_, _, _, _, z, rfl, rfl, h1, by simp only [smul, Vec.mk.injEq]; refine ⟨?_, ?_, ?_⟩ <;> field_simp⟩
  · have := h1.ne
    exact ⟨_, _, _, _, -x, rfl, rfl, neg_pos.2 h1, by simp only [smul, Vec.mk.injEq]; refine ⟨?_, ?_, ?_⟩ <;> field_simp⟩
  · have := h1.ne
    exact ⟨_, _, _, _, -y, rfl, rfl, neg_pos.2 h1, by simp only [smul, Vec.mk.injEq]; refine ⟨?_, ?_, ?_⟩ <;> field_simp⟩
  · have := h1.ne
    exact ⟨_, _, _, _, -z, rfl, rfl, neg_pos.2 h1, by simp only [smul, Vec.mk.injEq]; refine ⟨?_, ?_, ?_⟩ <;> field_simp⟩

/-- **C60.** `face_xyz_to_uv` gives the coordinates exactly for the vectors in front of the face; the result is the projection to
the face. -/
theorem c60_faceXYZtoUV {f : Nat} (hf : f < 6) (r : Vec K) :
    (∃ n, uvwAxis f 2 = some n ∧ (faceXYZtoUV _root_.id f r = some none ↔ dot r n ≤ 0)) ∧
    ∀ u v, faceXYZtoUV _root_.id f r = some (some (u, v)) → ∃ w t, faceUVtoXYZ f u v = some w ∧ 0 < t ∧ r = smul t w := by
  obtain ⟨x, y, z⟩ := r
  constructor
  · interval_cases f <;> refine ⟨_, rfl, ?_⟩ <;> simp [faceXYZtoUV, validFaceXYZtoUV, dot]
  · intro u v h
    interval_cases f <;> simp only [faceXYZtoUV, validFaceXYZtoUV, Option.bind_eq_bind, Option.bind_some, decide_eq_true_eq, _root_.id] at h <;>
      split at h <;> simp only [Option.some.injEq, Prod.mk.injEq, reduceCtorEq] at h <;> obtain ⟨rfl, rfl⟩ := h <;> rename_i h1 <;>
      replace h1 := not_le.1 h1
    · exact ⟨_, x, rfl, h1, by simp only [smul, Vec.mk.injEq]; refine ⟨?_, ?_, ?_⟩ <;> field_simp⟩
    · exact ⟨_, y, rfl, h1, by simp only [smul, Vec.mk.injEq]; refine ⟨?_, ?_, ?_⟩ <;> field_simp⟩
    · exact ⟨_, z, rfl, h1, by simp only [smul, Vec.mk.injEq]; refine ⟨?_, ?_, ?_⟩ <;> field_simp⟩
    · have := h1.ne
      exact ⟨_, -x, rfl, neg_pos.2 h1, by simp only [smul, Vec.mk.injEq]; refine ⟨?_, ?_, ?_⟩ <;> field_simp⟩
    · have := h1.ne
      exact ⟨_, -y, rfl, neg_pos.2 h1, by simp only [smul, Vec.mk.injEq]; refine ⟨?_, ?_, ?_⟩ <;> field_simp⟩
    · have := h1.ne
      exact ⟨_, -z, rfl, neg_pos.2 h1, by simp only [smul, Vec.mk.injEq]; refine ⟨?_, ?_, ?_⟩ <;> field_simp⟩

/-! ## C73: frames of the faces -/

/-- **C73.** The three axes of a face are a right-handed orthonormal frame, `face_uv_to_xyz` is the point with coordinates
`(u, v, 1)` and `face_xyz_to_uvw` gives the coordinates. -/
theorem c73_frame {f : Nat} (hf : f < 6) : ∃ a b c : Vec K, uvwAxis f 0 = some a ∧ uvwAxis f 1 = some b ∧ uvwAxis f 2 = some c ∧
    dot a a = 1 ∧ dot b b = 1 ∧ dot c c = 1 ∧ dot a b = 0 ∧ dot b c = 0 ∧ dot a c = 0 ∧ cross a b = c ∧
    (∀ u v, faceUVtoXYZ f u v = some ⟨u * a.x + v * b.x + c.x, u * a.y + v * b.y + c.y, u * a.z + v * b.z + c.z⟩) ∧
    ∀ p, faceXYZtoUVW f p = some ⟨dot p a, dot p b, dot p c⟩ := by
  interval_cases f <;> refine ⟨_, _, _, rfl, rfl, rfl, ?_⟩ <;> simp [dot, cross, faceUVtoXYZ, faceXYZtoUVW]

/-- **C73.** `uvw_face` is the face that an axis of another face points to. -/
theorem c73_uvwFace {f a : Nat} (hf : f < 6) (ha : a < 3) : ∃ n : Vec K, uvwAxis f a = some n ∧ uvwFace f a 1 = some (vecFace n) ∧
    uvwFace f a 0 = some (vecFace (smul (-1) n)) := by
  have h01 : ¬ (1 : K) < 0 := by norm_num
  interval_cases f <;> interval_cases a <;> refine ⟨_, rfl, ?_⟩ <;> simp [uvwFace, faceUVWFaces, vecFace, smul, h01]

/-- **C73.** `unorm` and `vnorm` are normals of the lines of constant `u` and `v`: the scalar product with a point of the face has
the sign of the difference of the coordinates. -/
theorem c73_norms {f : Nat} (hf : f < 6) (u v u' v' : K) : ∃ p n m, faceUVtoXYZ f u' v' = some p ∧ unorm f u = some n ∧
    vnorm f v = some m ∧ dot n p = u - u' ∧ dot m p = v' - v := by
  interval_cases f <;> refine ⟨_, _, _, rfl, rfl, rfl, ?_, ?_⟩ <;> simp [dot] <;> ring

/-! ## Examples -/

example : faceUVtoXYZ 3 (1 / 2 : ℚ) (-1 / 3) = some ⟨-1, 1 / 3, -1 / 2⟩ := by norm_num [faceUVtoXYZ]

example : stToUV _root_.id (3 / 4 : ℚ) = 5 / 12 := by rw [stToUV_ge (by norm_num)]; norm_num

example : uvToST _root_.id Real.sqrt (stToUV _root_.id (1 / 3)) = 1 / 3 := c59_uvToST_stToUV isSqrt_real _

end Verif
