import Verif.Model.Centroid
import Verif.Proofs.Moment
import Verif.Properties.Random

/-!
# C103, C104: the centroids of a triangle, regular polygons

`Spec.moment S` is the integral of the position over the part of the unit sphere in the directions `S`. It is expressed by the integral
over the solid cone: a direction `u` of the sphere contributes `∫ r³ dr · u = u / 4` to the integral of the position over the cone.
-/

namespace Verif
open Spec

theorem arcRatio_sin {s : ℝ} (h0 : 0 ≤ s) (h1 : s < Real.pi) : Vec.arcRatio _root_.id Real.sin s * Real.sin s = s := by
  unfold Vec.arcRatio
  by_cases h : s = 0
  · rw [if_pos h, h, Real.sin_zero, mul_zero]
  · rw [if_neg h]
    have : Real.sin s ≠ 0 := (Real.sin_pos_of_pos_of_lt_pi (lt_of_le_of_ne h0 (Ne.symm h)) h1).ne'
    simp only [_root_.id]
    field_simp

/-- The result in terms of the three products of two corners. -/
theorem centroid_formula (atan2 : ℝ → ℝ → ℝ) (a b c : Vec ℝ) :
    Vec.trueCentroid _root_.id Real.sqrt atan2 Real.sin a b c =
      smul (1 / 2) (lin 1 (lin (Vec.arcRatio _root_.id Real.sin (Vec.angle _root_.id Real.sqrt atan2 b c)) (cross b c)
        (Vec.arcRatio _root_.id Real.sin (Vec.angle _root_.id Real.sqrt atan2 c a)) (cross c a))
        (Vec.arcRatio _root_.id Real.sin (Vec.angle _root_.id Real.sqrt atan2 a b)) (cross a b)) := by
  unfold Vec.trueCentroid
  dsimp only
  generalize Vec.arcRatio _root_.id Real.sin (Vec.angle _root_.id Real.sqrt atan2 b c) = ra
  generalize Vec.arcRatio _root_.id Real.sin (Vec.angle _root_.id Real.sqrt atan2 c a) = rb
  generalize Vec.arcRatio _root_.id Real.sin (Vec.angle _root_.id Real.sqrt atan2 a b) = rc
  refine vec_eq ?_ ?_ ?_ <;> (simp only [Vec.scale, Vec.dot, Vec.cross, smul, lin, cross, _root_.id]; ring)

/-- A vector is determined by its scalar products with three independent vectors. -/
theorem vec_of_dots {a b c p q : Vec ℝ} (hd : det a b c ≠ 0) (ha : dot a p = dot a q) (hb : dot b p = dot b q) (hc : dot c p = dot c q) : p = q := by
  have ex : det a b c * (p.x - q.x) = 0 := by
    simp only [det, dot, cross] at *
    linear_combination (b.y * c.z - b.z * c.y) * ha + (c.y * a.z - c.z * a.y) * hb + (a.y * b.z - a.z * b.y) * hc
  have ey : det a b c * (p.y - q.y) = 0 := by
    simp only [det, dot, cross] at *
    linear_combination (b.z * c.x - b.x * c.z) * ha + (c.z * a.x - c.x * a.z) * hb + (a.z * b.x - a.x * b.z) * hc
  have ez : det a b c * (p.z - q.z) = 0 := by
    simp only [det, dot, cross] at *
    linear_combination (b.x * c.y - b.y * c.x) * ha + (c.x * a.y - c.y * a.x) * hb + (a.x * b.y - a.y * b.x) * hc
  refine vec_eq ?_ ?_ ?_
  · linarith [(mul_eq_zero.1 ex).resolve_left hd]
  · linarith [(mul_eq_zero.1 ey).resolve_left hd]
  · linarith [(mul_eq_zero.1 ez).resolve_left hd]

theorem det_rot (a b c : Vec ℝ) : det b c a = det a b c := by simp only [det, dot, cross]; ring

theorem inTriangle_rot (a b c : Vec ℝ) : InTriangle b c a = InTriangle a b c := by
  funext v
  refine propext ⟨?_, ?_⟩
  · rintro ⟨x, y, z, x0, y0, z0, rfl⟩
    exact ⟨z, x, y, z0, x0, y0, vec_eq (by dsimp only; ring) (by dsimp only; ring) (by dsimp only; ring)⟩
  · rintro ⟨x, y, z, x0, y0, z0, rfl⟩
    exact ⟨y, z, x, y0, z0, x0, vec_eq (by dsimp only; ring) (by dsimp only; ring) (by dsimp only; ring)⟩

theorem ang_open {a b c : Vec ℝ} (ha : UnitV a) (hb : UnitV b) (hc : UnitV c) (hd : det a b c ≠ 0) : 0 < ang b c ∧ ang b c < Real.pi := by
  obtain ⟨-, hq, -, -⟩ := side_products ha hb hc hd
  have cosq := cos_ang hb hc
  constructor
  · refine lt_of_le_of_ne (ang_nonneg b c) fun h => ?_
    rw [← h, Real.cos_zero] at cosq
    rw [← cosq] at hq
    norm_num at hq
  · refine lt_of_le_of_ne (ang_le_pi b c) fun h => ?_
    rw [h, Real.cos_pi] at cosq
    rw [← cosq] at hq
    norm_num at hq

theorem moment_corner {a b c : Vec ℝ} (ha : UnitV a) (hb : UnitV b) (hc : UnitV c) (hd : det a b c ≠ 0) :
    dot a (moment (InTriangle a b c)) = |det a b c| * (Vec.arcRatio _root_.id Real.sin (ang b c) / 2) := by
  obtain ⟨t0, t1⟩ := ang_open ha hb hc hd
  have := (Real.sin_pos_of_pos_of_lt_pi t0 t1).ne'
  rw [moment_dot ha (measurable_triangle hd), solid_triangle ha hb hc hd]
  unfold Vec.arcRatio
  rw [if_neg t0.ne']
  simp only [_root_.id]
  field_simp
  ring

/-- **C103.** In exact arithmetic `true_centroid` is the integral of the position over the spherical triangle, with the sign of its
orientation. -/
theorem c103_trueCentroid {atan2 : ℝ → ℝ → ℝ} (hat : IsAtan2 atan2) {a b c : Vec ℝ} (ha : UnitV a) (hb : UnitV b) (hc : UnitV c) (hd : det a b c ≠ 0) :
    Vec.trueCentroid _root_.id Real.sqrt atan2 Real.sin a b c = smul (SignType.sign (det a b c) : ℝ) (moment (InTriangle a b c)) := by
  have m1 := moment_corner ha hb hc hd
  have m2 := moment_corner hb hc ha (by rw [det_rot]; exact hd)
  have m3 := moment_corner hc ha hb (by rw [det_rot, det_rot]; exact hd)
  rw [det_rot, inTriangle_rot] at m2
  rw [det_rot, det_rot, inTriangle_rot, inTriangle_rot] at m3
  have sg : (SignType.sign (det a b c) : ℝ) * |det a b c| = det a b c := sign_mul_abs _
  rw [centroid_formula, angle_exact hat hb hc, angle_exact hat hc ha, angle_exact hat ha hb]
  have pull : ∀ (t : ℝ) (p q : Vec ℝ), dot p (smul t q) = t * dot p q := by intro t p q; simp only [dot, smul]; ring
  refine vec_of_dots hd ?_ ?_ ?_
  · rw [pull, pull, m1, ← mul_assoc, sg]
    simp only [det, dot, lin, cross]; ring
  · rw [pull, pull, m2, ← mul_assoc, sg]
    simp only [det, dot, lin, cross]; ring
  · rw [pull, pull, m3, ← mul_assoc, sg]
    simp only [det, dot, lin, cross]; ring

/-- **C103.** Exchanging two corners changes the sign of the result, a cyclic exchange does not change it. -/
theorem c103_orientation {atan2 : ℝ → ℝ → ℝ} (hat : IsAtan2 atan2) {a b c : Vec ℝ} (ha : UnitV a) (hb : UnitV b) (hc : UnitV c) :
    Vec.trueCentroid _root_.id Real.sqrt atan2 Real.sin b c a = Vec.trueCentroid _root_.id Real.sqrt atan2 Real.sin a b c ∧
    Vec.trueCentroid _root_.id Real.sqrt atan2 Real.sin a c b = smul (-1) (Vec.trueCentroid _root_.id Real.sqrt atan2 Real.sin a b c) := by
  have s : ∀ p q : Vec ℝ, ang p q = ang q p := fun p q => by unfold ang; rw [dot_comm]
  simp only [centroid_formula, angle_exact hat hb hc, angle_exact hat hc ha, angle_exact hat ha hb, angle_exact hat hc hb, angle_exact hat hb ha, angle_exact hat ha hc]
  rw [s c b, s b a, s a c]
  constructor <;> (refine vec_eq ?_ ?_ ?_ <;> (simp only [smul, lin, cross]; ring))

/-- The two parts of an arc cut at an inner point. -/
theorem arc_parts {b c d : Vec ℝ} (hb : UnitV b) (hc : UnitV c) (hbc : c ≠ smul (-1) b) (hd : OnEdge b c d) :
    lin (Vec.arcRatio _root_.id Real.sin (ang b d)) (cross b d) (Vec.arcRatio _root_.id Real.sin (ang d c)) (cross d c) =
      smul (Vec.arcRatio _root_.id Real.sin (ang b c)) (cross b c) := by
  obtain ⟨du, s, t, s0, t0, de⟩ := hd
  obtain ⟨e, eu, eo, hce⟩ := exists_dir hb hc
  have th0 := ang_nonneg b c
  have thp : ang b c < Real.pi := by
    refine lt_of_le_of_ne (ang_le_pi b c) fun h => hbc ?_
    rw [hce, h, Real.cos_pi, Real.sin_pi]
    exact vec_eq (by simp [lin, smul]) (by simp [lin, smul]) (by simp [lin, smul])
  obtain ⟨θ, hθ⟩ : ∃ θ, θ = ang b c := ⟨_, rfl⟩
  rw [← hθ] at th0 thp hce ⊢
  have si0 : 0 ≤ Real.sin θ := Real.sin_nonneg_of_nonneg_of_le_pi th0 thp.le
  have de2 : d = lin (s + t * Real.cos θ) b (t * Real.sin θ) e := by
    rw [de, hce]
    refine vec_eq ?_ ?_ ?_ <;> (simp only [lin]; ring)
  obtain ⟨φ, hφ⟩ : ∃ φ, φ = ang b d := ⟨_, rfl⟩
  have ph0 : 0 ≤ φ := hφ ▸ ang_nonneg b d
  have php : φ ≤ Real.pi := hφ ▸ ang_le_pi b d
  have bb : dot b b = 1 := hb
  have ee : dot e e = 1 := eu
  have cφ : Real.cos φ = s + t * Real.cos θ := by
    rw [hφ, cos_ang hb du, de2]
    have : dot b (lin (s + t * Real.cos θ) b (t * Real.sin θ) e) = (s + t * Real.cos θ) * dot b b + t * Real.sin θ * dot b e := by simp only [dot, lin]; ring
    rw [this, bb, eo]; ring
  have n1 : (s + t * Real.cos θ) ^ 2 + (t * Real.sin θ) ^ 2 = 1 := by
    have h : dot d d = 1 := du
    rw [de2] at h
    have : dot (lin (s + t * Real.cos θ) b (t * Real.sin θ) e) (lin (s + t * Real.cos θ) b (t * Real.sin θ) e) =
        (s + t * Real.cos θ) ^ 2 * dot b b + (t * Real.sin θ) ^ 2 * dot e e + 2 * (s + t * Real.cos θ) * (t * Real.sin θ) * dot b e := by simp only [dot, lin]; ring
    rw [this, bb, ee, eo] at h
    linarith
  have sφ : Real.sin φ = t * Real.sin θ := by
    have h1 := Real.sin_sq_add_cos_sq φ
    rw [cφ] at h1
    exact (pow_left_inj₀ (Real.sin_nonneg_of_nonneg_of_le_pi ph0 php) (mul_nonneg t0 si0) two_ne_zero).1 (by linarith)
  have hs : Real.sin (θ - φ) = s * Real.sin θ := by rw [Real.sin_sub, cφ, sφ]; ring
  have le : φ ≤ θ := by
    by_contra h
    rcases th0.lt_or_eq with h0 | h0
    · have := Real.sin_neg_of_neg_of_neg_pi_lt (x := θ - φ) (by linarith) (by linarith)
      rw [hs] at this
      linarith [mul_nonneg s0 si0]
    · rw [← h0, Real.sin_zero, mul_zero] at sφ
      rw [← h0, Real.sin_zero, Real.cos_zero, mul_one, mul_zero, zero_pow two_ne_zero, add_zero] at n1
      rw [← h0, Real.cos_zero, mul_one] at cφ
      have : s + t = 1 := by nlinarith
      rw [this] at cφ
      have : φ = 0 := by rw [← Real.arccos_cos ph0 php, cφ, Real.arccos_one]
      exact h (by rw [this]; linarith)
  have aψ : ang d c = θ - φ := by
    refine ang_of_cos (by linarith) (by linarith) ?_
    rw [hce, de2, Real.cos_sub, cφ, sφ]
    have : dot (lin (s + t * Real.cos θ) b (t * Real.sin θ) e) (lin (Real.cos θ) b (Real.sin θ) e) =
        (s + t * Real.cos θ) * Real.cos θ * dot b b + t * Real.sin θ * Real.sin θ * dot e e + ((s + t * Real.cos θ) * Real.sin θ + t * Real.sin θ * Real.cos θ) * dot b e := by
      simp only [dot, lin]; ring
    rw [this, bb, ee, eo]; ring
  have r1 := arcRatio_sin ph0 (by linarith)
  have r2 := arcRatio_sin (s := θ - φ) (by linarith) (by linarith)
  have r3 := arcRatio_sin th0 thp
  rw [← hφ, aψ]
  have c1 : cross b d = smul (Real.sin φ) (cross b e) := by rw [de2, sφ]; refine vec_eq ?_ ?_ ?_ <;> (simp only [lin, smul, cross]; ring)
  have c2 : cross d c = smul (Real.sin (θ - φ)) (cross b e) := by rw [de2, hce, hs]; refine vec_eq ?_ ?_ ?_ <;> (simp only [lin, smul, cross]; ring)
  have c3 : cross b c = smul (Real.sin θ) (cross b e) := by rw [hce]; refine vec_eq ?_ ?_ ?_ <;> (simp only [lin, smul, cross]; ring)
  rw [c1, c2, c3]
  generalize cross b e = n
  refine vec_eq ?_ ?_ ?_ <;> simp only [lin, smul]
  · linear_combination n.x * r1 + n.x * r2 - n.x * r3
  · linear_combination n.y * r1 + n.y * r2 - n.y * r3
  · linear_combination n.z * r1 + n.z * r2 - n.z * r3

/-- **C103.** Cutting a triangle from a corner to a point of the opposite side: the results for the two parts add up to the result for
the triangle. -/
theorem c103_split {atan2 : ℝ → ℝ → ℝ} (hat : IsAtan2 atan2) {a b c d : Vec ℝ} (ha : UnitV a) (hb : UnitV b) (hc : UnitV c) (hbc : c ≠ smul (-1) b)
    (hd : OnEdge b c d) :
    lin 1 (Vec.trueCentroid _root_.id Real.sqrt atan2 Real.sin a b d) 1 (Vec.trueCentroid _root_.id Real.sqrt atan2 Real.sin a d c) =
      Vec.trueCentroid _root_.id Real.sqrt atan2 Real.sin a b c := by
  have du := hd.1
  have e := arc_parts hb hc hbc hd
  have s : ang d a = ang a d := by unfold ang; rw [dot_comm]
  simp only [centroid_formula, angle_exact hat hb hc, angle_exact hat hc ha, angle_exact hat ha hb, angle_exact hat hb du, angle_exact hat du hc, angle_exact hat du ha,
    angle_exact hat ha du]
  rw [s]
  obtain ⟨ex, ey, ez⟩ := Vec.mk.injEq .. ▸ e
  refine vec_eq ?_ ?_ ?_ <;> simp only [lin, smul, cross] at *
  · linear_combination (1 / 2) * ex
  · linear_combination (1 / 2) * ey
  · linear_combination (1 / 2) * ez

/-- **C103.** A triangle with a corner on the opposite side has the result zero. -/
theorem c103_degenerate {atan2 : ℝ → ℝ → ℝ} (hat : IsAtan2 atan2) {b c d : Vec ℝ} (hb : UnitV b) (hc : UnitV c) (hbc : c ≠ smul (-1) b) (hd : OnEdge b c d) :
    Vec.trueCentroid _root_.id Real.sqrt atan2 Real.sin d b c = ⟨0, 0, 0⟩ := by
  have du := hd.1
  rw [← c103_split hat du hb hc hbc hd]
  have s : ∀ p q : Vec ℝ, ang p q = ang q p := fun p q => by unfold ang; rw [dot_comm]
  simp only [centroid_formula, angle_exact hat hb du, angle_exact hat du du, angle_exact hat du hb, angle_exact hat du hc, angle_exact hat hc du]
  rw [s d b, s c d]
  refine vec_eq ?_ ?_ ?_ <;> (simp only [lin, smul, cross]; ring)

theorem normalize_pos {p : Vec ℝ} (hp : 0 < dot p p) : UnitV (Vec.normalize _root_.id Real.sqrt p) ∧ ∃ t, 0 < t ∧ Vec.normalize _root_.id Real.sqrt p = smul t p := by
  have hz : ¬ IsZero p := by
    rintro ⟨z1, z2, z3⟩
    unfold dot at hp
    rw [z1, z2, z3] at hp
    norm_num at hp
  obtain ⟨t, t0, t1, t2⟩ := c74_normalize isSqrt_real hz
  exact ⟨t2, t, t0, t1⟩

/-- **C103.** In exact arithmetic the surface centroid is on the medians: from a corner the arc through it reaches the midpoint of the
opposite side. -/
theorem c103_planarCentroid {a b c : Vec ℝ} (hb : UnitV b) (hc : UnitV c) (hbc : c ≠ smul (-1) b)
    (hd : 0 < dot (Vec.planarCentroid _root_.id a b c) (Vec.planarCentroid _root_.id a b c)) :
    ∃ m, OnEdge b c m ∧ ang b m = ang c m ∧ OnEdge a m (Vec.normalize _root_.id Real.sqrt (Vec.planarCentroid _root_.id a b c)) := by
  obtain ⟨u, t, t0, e⟩ := normalize_pos hd
  have bb : dot b b = 1 := hb
  have cc : dot c c = 1 := hc
  have pos : 0 < dot (lin 1 b 1 c) (lin 1 b 1 c) := by
    rcases (dot_self_nonneg (lin 1 b 1 c)).lt_or_eq with h | h
    · exact h
    · exfalso
      have z : (b.x + c.x) ^ 2 + (b.y + c.y) ^ 2 + (b.z + c.z) ^ 2 = 0 := by
        simp only [dot, lin] at h
        linarith
      have zx : b.x + c.x = 0 := by nlinarith [sq_nonneg (b.x + c.x), sq_nonneg (b.y + c.y), sq_nonneg (b.z + c.z)]
      have zy : b.y + c.y = 0 := by nlinarith [sq_nonneg (b.x + c.x), sq_nonneg (b.y + c.y), sq_nonneg (b.z + c.z)]
      have zz : b.z + c.z = 0 := by nlinarith [sq_nonneg (b.x + c.x), sq_nonneg (b.y + c.y), sq_nonneg (b.z + c.z)]
      exact hbc (vec_eq (by simp only [smul]; linarith) (by simp only [smul]; linarith) (by simp only [smul]; linarith))
  obtain ⟨mu, r, r0, me⟩ := normalize_pos pos
  refine ⟨_, ⟨mu, r, r, r0.le, r0.le, ?_⟩, ?_, u, t / 3, t / (3 * r), by positivity, by positivity, ?_⟩
  · rw [me]
    refine vec_eq ?_ ?_ ?_ <;> (simp only [lin, smul]; ring)
  · unfold ang
    refine congrArg Real.arccos ?_
    rw [me]
    have : dot b (smul r (lin 1 b 1 c)) = r * (dot b b + dot b c) := by simp only [dot, lin, smul]; ring
    rw [this]
    have : dot c (smul r (lin 1 b 1 c)) = r * (dot b c + dot c c) := by simp only [dot, lin, smul]; ring
    rw [this, bb, cc, add_comm]
  · rw [e, me]
    refine vec_eq ?_ ?_ ?_ <;> (simp only [Vec.planarCentroid, Vec.scale, Vec.add, lin, smul, _root_.id]; field_simp; ring)

/-! ## Regular polygons -/

theorem fromFrame_det {sqrt : ℝ → ℝ} (hs : IsSqrt sqrt) {p : Vec ℝ} (h : UnitV p) (u v w : Vec ℝ) :
    det (Vec.fromFrame _root_.id (Vec.frame _root_.id sqrt p) u) (Vec.fromFrame _root_.id (Vec.frame _root_.id sqrt p) v)
      (Vec.fromFrame _root_.id (Vec.frame _root_.id sqrt p) w) = det u v w := by
  obtain ⟨f1, f2, _⟩ := c74_frame hs (p := p) h u v
  have d1 : det (Vec.frame _root_.id sqrt p).c0 (Vec.frame _root_.id sqrt p).c1 (Vec.frame _root_.id sqrt p).c2 = 1 := by
    unfold det
    rw [f2, f1]
    exact h
  generalize Vec.frame _root_.id sqrt p = m at *
  simp only [det, dot, cross, Vec.fromFrame, Vec.dot, _root_.id] at *
  linear_combination (u.x * v.y * w.z - u.x * v.z * w.y + u.y * v.z * w.x - u.y * v.x * w.z + u.z * v.x * w.y - u.z * v.y * w.x) * d1

theorem fromFrame_axis {p : Vec ℝ} (h : UnitV p) : Vec.fromFrame _root_.id (Vec.frame _root_.id Real.sqrt p) ⟨0, 0, 1⟩ = p := by
  obtain ⟨f1, _⟩ := c74_frame isSqrt_real (p := p) h p p
  simp only [Vec.fromFrame, Vec.dot, _root_.id, mul_zero, mul_one, zero_add]
  rw [f1]

/-- The point of number `i` of the polygon, in the frame. -/
theorem regular_get {c : Vec ℝ} (hc : UnitV c) (r : ℝ) {n i : Nat} (hi : i < n) :
    ∃ q : Vec ℝ, q = ⟨Real.sin r * Real.cos (i * (2 * Real.pi / n)), Real.sin r * Real.sin (i * (2 * Real.pi / n)), Real.cos r⟩ ∧ UnitV q ∧
      (Vec.regularPoints _root_.id Real.sqrt Real.sin Real.cos Real.pi c r n)[i]? = some (Vec.fromFrame _root_.id (Vec.frame _root_.id Real.sqrt c) q) := by
  refine ⟨_, rfl, ?_, ?_⟩
  · unfold UnitV dot
    linear_combination Real.sin r ^ 2 * Real.sin_sq_add_cos_sq (i * (2 * Real.pi / n)) + Real.sin_sq_add_cos_sq r
  · have hu : UnitV (⟨Real.sin r * Real.cos (i * (2 * Real.pi / n)), Real.sin r * Real.sin (i * (2 * Real.pi / n)), Real.cos r⟩ : Vec ℝ) := by
      unfold UnitV dot
      linear_combination Real.sin r ^ 2 * Real.sin_sq_add_cos_sq (i * (2 * Real.pi / n)) + Real.sin_sq_add_cos_sq r
    obtain ⟨_, _, _, _, f5⟩ := c74_frame isSqrt_real (p := c) hc ⟨Real.sin r * Real.cos (i * (2 * Real.pi / n)), Real.sin r * Real.sin (i * (2 * Real.pi / n)), Real.cos r⟩
      ⟨Real.sin r * Real.cos (i * (2 * Real.pi / n)), Real.sin r * Real.sin (i * (2 * Real.pi / n)), Real.cos r⟩
    unfold Vec.regularPoints Vec.regularPointsForFrame
    dsimp only
    rw [List.getElem?_map, List.getElem?_range hi, Option.map_some]
    exact congrArg some (normalize_unit (f5.trans hu))

/-- **C104.** In exact arithmetic `regular_points` returns `num_vertices` unit vectors at the given distance from the center. -/
theorem c104_circle {c : Vec ℝ} (hc : UnitV c) {r : ℝ} (h0 : 0 ≤ r) (h1 : r ≤ Real.pi) (n : Nat) :
    (Vec.regularPoints _root_.id Real.sqrt Real.sin Real.cos Real.pi c r n).length = n ∧
    ∀ p ∈ Vec.regularPoints _root_.id Real.sqrt Real.sin Real.cos Real.pi c r n, UnitV p ∧ ang c p = r := by
  have len : (Vec.regularPoints _root_.id Real.sqrt Real.sin Real.cos Real.pi c r n).length = n := by
    unfold Vec.regularPoints Vec.regularPointsForFrame
    dsimp only
    rw [List.length_map, List.length_range]
  refine ⟨len, fun p hp => ?_⟩
  obtain ⟨i, hi, e⟩ := List.mem_iff_getElem.1 hp
  rw [len] at hi
  obtain ⟨q, hq, qu, e2⟩ := regular_get hc r hi
  rw [List.getElem?_eq_getElem (by rw [len]; exact hi), e] at e2
  obtain rfl := Option.some.inj e2
  obtain ⟨_, _, _, _, f5⟩ := c74_frame isSqrt_real (p := c) hc q q
  obtain ⟨_, _, _, _, g5⟩ := c74_frame isSqrt_real (p := c) hc ⟨0, 0, 1⟩ q
  rw [fromFrame_axis hc] at g5
  refine ⟨f5.trans qu, ang_of_cos h0 h1 ?_⟩
  rw [g5, hq]
  simp [dot]

/-- **C104.** The points are spaced by equal angles, counterclockwise around the center. -/
theorem c104_spacing {c : Vec ℝ} (hc : UnitV c) (r : ℝ) {n i j : Nat} {p q : Vec ℝ}
    (hp : (Vec.regularPoints _root_.id Real.sqrt Real.sin Real.cos Real.pi c r n)[i]? = some p)
    (hq : (Vec.regularPoints _root_.id Real.sqrt Real.sin Real.cos Real.pi c r n)[j]? = some q) :
    dot p q = Real.cos r ^ 2 + Real.sin r ^ 2 * Real.cos (2 * Real.pi * (j - i) / n) ∧
    det c p q = Real.sin r ^ 2 * Real.sin (2 * Real.pi * (j - i) / n) := by
  have len : ∀ {k : Nat} {x : Vec ℝ}, (Vec.regularPoints _root_.id Real.sqrt Real.sin Real.cos Real.pi c r n)[k]? = some x → k < n := by
    intro k x hx
    have := (List.getElem?_eq_some_iff.1 hx).1
    unfold Vec.regularPoints Vec.regularPointsForFrame at this
    dsimp only at this
    rwa [List.length_map, List.length_range] at this
  obtain ⟨u, hu, _, eu⟩ := regular_get hc r (len hp)
  obtain ⟨v, hv, _, ev⟩ := regular_get hc r (len hq)
  rw [hp] at eu
  rw [hq] at ev
  obtain rfl := Option.some.inj eu
  obtain rfl := Option.some.inj ev
  obtain ⟨_, _, _, _, f5⟩ := c74_frame isSqrt_real (p := c) hc u v
  have d := fromFrame_det isSqrt_real hc ⟨0, 0, 1⟩ u v
  rw [fromFrame_axis hc] at d
  rw [f5, d, show 2 * Real.pi * ((j : ℝ) - i) / n = j * (2 * Real.pi / n) - i * (2 * Real.pi / n) by ring, Real.cos_sub, Real.sin_sub, hu, hv]
  simp only [det, dot, cross]
  constructor <;> ring

/-- **C104.** With at least three vertices and a radius strictly between zero and a half turn the points are different, and each point is
counterclockwise after its predecessor, seen from the center. -/
theorem c104_polygon {c : Vec ℝ} (hc : UnitV c) {r : ℝ} (h0 : 0 < r) (h1 : r < Real.pi) {n : Nat} (hn : 3 ≤ n) :
    (Vec.regularPoints _root_.id Real.sqrt Real.sin Real.cos Real.pi c r n).Nodup ∧
    ∀ {i : Nat} {p q : Vec ℝ}, (Vec.regularPoints _root_.id Real.sqrt Real.sin Real.cos Real.pi c r n)[i]? = some p →
      (Vec.regularPoints _root_.id Real.sqrt Real.sin Real.cos Real.pi c r n)[(i + 1) % n]? = some q → 0 < det c p q := by
  have s0 : 0 < Real.sin r := Real.sin_pos_of_pos_of_lt_pi h0 h1
  have n0 : (0 : ℝ) < n := by exact_mod_cast (by omega : 0 < n)
  have len := (c104_circle hc h0.le h1.le n).1
  have pp := Real.pi_pos
  constructor
  · rw [List.nodup_iff_getElem?_ne_getElem?]
    intro i j hij hj e
    rw [len] at hj
    obtain ⟨x, hx⟩ : ∃ x, (Vec.regularPoints _root_.id Real.sqrt Real.sin Real.cos Real.pi c r n)[j]? = some x :=
      ⟨_, List.getElem?_eq_getElem (by rw [len]; exact hj)⟩
    have d := (c104_spacing hc r (e.trans hx) hx).1
    have m := ((c104_circle hc h0.le h1.le n).2 x (List.mem_of_getElem? hx)).1
    rw [show dot x x = 1 from m] at d
    have c1 : Real.cos (2 * Real.pi * (j - i) / n) = 1 := by
      have t := Real.sin_sq_add_cos_sq r
      have s2 : 0 < Real.sin r ^ 2 := by positivity
      exact mul_left_cancel₀ s2.ne' (by linarith)
    have ij : (0 : ℝ) < (j : ℝ) - i := by
      have : (i : ℝ) < j := by exact_mod_cast hij
      linarith
    have jn : (j : ℝ) - i < n := by
      have h : (j : ℝ) < n := by exact_mod_cast hj
      have : (0 : ℝ) ≤ i := by positivity
      linarith
    have a0 : 0 < 2 * Real.pi * (j - i) / n := by positivity
    have a1 : 2 * Real.pi * (j - i) / n < 2 * Real.pi := by rw [div_lt_iff₀ n0]; exact mul_lt_mul_of_pos_left jn (by positivity)
    exact absurd ((Real.cos_eq_one_iff_of_lt_of_lt (by linarith) a1).1 c1) a0.ne'
  · intro i p q hp hq
    have hi : i < n := by
      have := (List.getElem?_eq_some_iff.1 hp).1
      rwa [len] at this
    rw [(c104_spacing hc r hp hq).2]
    refine mul_pos (by positivity) ?_
    have n3 : (3 : ℝ) ≤ n := by exact_mod_cast hn
    have pos : 0 < Real.sin (2 * Real.pi / n) := by
      refine Real.sin_pos_of_pos_of_lt_pi (by positivity) ?_
      rw [div_lt_iff₀ n0]
      nlinarith
    rcases Nat.lt_or_ge (i + 1) n with h | h
    · rw [Nat.mod_eq_of_lt h]
      rw [show 2 * Real.pi * (((i + 1 : Nat) : ℝ) - i) / n = 2 * Real.pi / n by push_cast; ring]
      exact pos
    · obtain rfl : n = i + 1 := by omega
      rw [Nat.mod_self]
      have : 2 * Real.pi * (((0 : Nat) : ℝ) - i) / ((i + 1 : Nat) : ℝ) = 2 * Real.pi / ((i + 1 : Nat) : ℝ) - 2 * Real.pi := by
        push_cast at n0 ⊢
        field_simp
        ring
      rw [this, Real.sin_sub_two_pi]
      exact pos

/-! ## Examples -/

/-- The centroid of the octant, times its area. -/
example : moment (InTriangle ⟨1, 0, 0⟩ ⟨0, 1, 0⟩ ⟨0, 0, 1⟩) = ⟨Real.pi / 4, Real.pi / 4, Real.pi / 4⟩ := by
  have h1 : UnitV (⟨1, 0, 0⟩ : Vec ℝ) := by norm_num [UnitV, dot]
  have h2 : UnitV (⟨0, 1, 0⟩ : Vec ℝ) := by norm_num [UnitV, dot]
  have h3 : UnitV (⟨0, 0, 1⟩ : Vec ℝ) := by norm_num [UnitV, dot]
  have hd : det (⟨1, 0, 0⟩ : Vec ℝ) ⟨0, 1, 0⟩ ⟨0, 0, 1⟩ = 1 := by norm_num [det, dot, cross]
  have e := c103_trueCentroid isAtan2_arg h1 h2 h3 (by rw [hd]; norm_num)
  rw [hd, centroid_formula, angle_exact isAtan2_arg h2 h3, angle_exact isAtan2_arg h3 h1, angle_exact isAtan2_arg h1 h2] at e
  have p0 := Real.pi_ne_zero
  simp [smul, lin, cross, ang, dot, Vec.arcRatio, p0] at e
  refine vec_eq ?_ ?_ ?_ <;> dsimp only
  · linarith [e.1]
  · linarith [e.2.1]
  · linarith [e.2.2]

/-- (0, 3/5, 4/5) is on the side from (0, 1, 0) to (0, 0, 1). -/
example : (⟨0, 0, 1⟩ : Vec ℝ) ≠ smul (-1) ⟨0, 1, 0⟩ ∧ OnEdge ⟨0, 1, 0⟩ ⟨0, 0, 1⟩ ⟨0, 3 / 5, 4 / 5⟩ := by
  refine ⟨by norm_num [smul], by norm_num [UnitV, dot], 3 / 5, 4 / 5, by norm_num, by norm_num, by norm_num [lin]⟩

example : 0 < dot (Vec.planarCentroid _root_.id (⟨1, 0, 0⟩ : Vec ℝ) ⟨0, 1, 0⟩ ⟨0, 0, 1⟩) (Vec.planarCentroid _root_.id ⟨1, 0, 0⟩ ⟨0, 1, 0⟩ ⟨0, 0, 1⟩) := by
  norm_num [Vec.planarCentroid, Vec.scale, Vec.add, dot]

/-- Three points at a right angle from the pole. -/
example : (Vec.regularPoints _root_.id Real.sqrt Real.sin Real.cos Real.pi ⟨0, 0, 1⟩ (Real.pi / 2) 3).Nodup :=
  (c104_polygon (by norm_num [UnitV, dot]) (by have := Real.pi_pos; linarith) (by have := Real.pi_pos; linarith) le_rfl).1

end Verif
