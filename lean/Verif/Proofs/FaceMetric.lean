import Verif.Proofs.FaceSpeed

/-!
# Distances between points of a face

The grid coordinates of a face go from -1 to 1; `facePt (gUV s) (gUV t)` is the direction of the point with the coordinates `s`, `t`.
-/

namespace Verif
open Spec

theorem facePt_swap (u v u' v' : ℝ) : ang (facePt u v) (facePt u' v') = ang (facePt v u) (facePt v' u') := by
  unfold ang
  congr 1
  simp only [dot, facePt]
  rw [show 1 + v ^ 2 + u ^ 2 = 1 + u ^ 2 + v ^ 2 by ring, show 1 + v' ^ 2 + u' ^ 2 = 1 + u' ^ 2 + v' ^ 2 by ring]
  ring

theorem gUV_path (s a t : ℝ) : HasDerivAt (fun x => gUV (s + x * a)) (2 * (1 + |s + t * a|) / 3 * a) t := by
  have h : HasDerivAt (fun x : ℝ => s + x * a) a t := by
    exact (((hasDerivAt_id t).mul_const a).const_add s).congr_deriv (by ring)
  exact (gUV_deriv (s + t * a)).comp t h

/-- Distances of arbitrary points. -/
theorem face_diag_le {s t s' t' m : ℝ} (h1 : |s' - s| ≤ m) (h2 : |t' - t| ≤ m) :
    ang (facePt (gUV s) (gUV t)) (facePt (gUV s') (gUV t')) ≤ 5491361961389203 / 2 ^ 51 / 2 * m := by
  have m0 : 0 ≤ m := (abs_nonneg _).trans h1
  have := face_path (u := fun x => gUV (s + x * (s' - s))) (v := fun x => gUV (t + x * (t' - t))) (L := 5491361961389203 / 2 ^ 51 / 2 * m)
    (fun x => gUV_path _ _ x) (fun x => gUV_path _ _ x) (by positivity) (fun x _ _ => diag_speed h1 h2)
  simp only [zero_mul, one_mul, add_zero] at this
  rwa [show s + (s' - s) = s' by ring, show t + (t' - t) = t' by ring] at this

/-- Distances along a line. -/
theorem face_line_le {s s' : ℝ} (v : ℝ) (h : |s| ≤ 1) (h' : |s'| ≤ 1) :
    ang (facePt (gUV s) v) (facePt (gUV s') v) ≤ 3839087150473305 / 2 ^ 51 / 2 * |s' - s| := by
  have := face_path (u := fun x => gUV (s + x * (s' - s))) (v := fun _ => v) (v' := fun _ => 0) (L := 3839087150473305 / 2 ^ 51 / 2 * |s' - s|)
    (fun x => gUV_path _ _ x) (fun x => hasDerivAt_const x v) (by positivity) (fun x x0 x1 => ?_)
  · simp only [zero_mul, one_mul, add_zero] at this
    rwa [show s + (s' - s) = s' by ring] at this
  · have hx : |s + x * (s' - s)| ≤ 1 := by
      rw [abs_le] at h h' ⊢
      constructor <;> nlinarith
    have k := line_speed (v := v) (a := s' - s) hx
    have e : (3839087150473305 / 2 ^ 51 / 2 * |s' - s|) ^ 2 = (3839087150473305 / 2 ^ 51 / 2 * (s' - s)) ^ 2 := by rw [mul_pow, sq_abs, ← mul_pow]
    rw [e]
    linarith

/-- The largest coordinate of a point of a face. -/
theorem facePt_x {u v : ℝ} : 0 < (facePt u v).x ∧ (facePt u v).y = u * (facePt u v).x ∧ (facePt u v).z = v * (facePt u v).x := by
  obtain ⟨h, -⟩ := face_r u v
  unfold facePt
  refine ⟨by positivity, ?_, ?_⟩ <;> ring

/-- The distance of points on opposite sides of a strip. -/
theorem face_width_ge {s d v v' : ℝ} (h0 : -1 ≤ s) (hd : 0 < d) (hd1 : d ≤ 1) (h1 : s + d ≤ 1) (hv : |v| ≤ 1) :
    √2 / 3 * d ≤ ang (facePt (gUV s) v) (facePt (gUV (s + d)) v') := by
  obtain ⟨x0, x1, x2⟩ := facePt_x (u := gUV s) (v := v)
  obtain ⟨y0, y1, y2⟩ := facePt_x (u := gUV (s + d)) (v := v')
  have up := facePt_unit (gUV s) v
  have uq := facePt_unit (gUV (s + d)) v'
  generalize facePt (gUV s) v = p at *
  generalize facePt (gUV (s + d)) v' = q at *
  unfold UnitV dot at up uq
  have hs : |gUV s| ≤ 1 := by
    have : |s| ≤ 1 := abs_le.2 ⟨h0, by linarith⟩
    exact (gUV_le this).trans this
  have hu : p.x ^ 2 + p.y ^ 2 + p.z ^ 2 = 1 := by linarith
  obtain ⟨w0, w1⟩ := strip_dist (b := gUV (s + d)) rfl h0 hd hd1 h1 hu x0 (by rw [x1, abs_mul, abs_of_pos x0]; nlinarith)
    (by rw [x2, abs_mul, abs_of_pos x0]; nlinarith) x1.le
  have sq2 : √2 ^ 2 = 2 := Real.sq_sqrt (by norm_num)
  have s2 : 0 < √2 := Real.sqrt_pos.2 (by norm_num)
  have s3 : √2 ≤ 3 / 2 := by rw [Real.sqrt_le_left (by norm_num)]; norm_num
  have w : √2 / 3 * d ≤ 1 := by nlinarith
  have k := plane_far (x := p.x) (y := p.y) (z := p.z) (a := q.x) (b := q.y) (c := q.z) (n1 := gUV (s + d)) (n2 := -1) (n3 := 0) (w := √2 / 3 * d)
    hu (by linarith) (by rw [y1]; linarith) (by linarith) (by positivity) w (by
      rw [show (√2 / 3 * d) ^ 2 = √2 ^ 2 / 9 * d ^ 2 by ring, sq2, show gUV (s + d) * p.x + -1 * p.y + 0 * p.z = gUV (s + d) * p.x - p.y by ring]
      linarith)
  by_contra hc
  push Not at hc
  have c := cos_ang (p := p) (q := q) (by unfold UnitV dot; linarith) (by unfold UnitV dot; linarith)
  have := Real.cos_lt_cos_of_nonneg_of_le_pi (ang_nonneg p q) (by linarith [Real.pi_gt_three]) hc
  unfold dot at c
  linarith

/-- Opposite sides of a whole face. -/
theorem face_width_face {v v' : ℝ} (hv : |v| ≤ 1) (hv' : |v'| ≤ 1) : √2 / 3 * 2 ≤ ang (facePt (gUV (-1)) v) (facePt (gUV 1) v') := by
  rw [gUV_one, gUV_negOne]
  have up := facePt_unit (-1) v
  have uq := facePt_unit 1 v'
  obtain ⟨x0, x1, x2⟩ := facePt_x (u := -1) (v := v)
  obtain ⟨y0, y1, y2⟩ := facePt_x (u := 1) (v := v')
  have c := cos_ang up uq
  generalize facePt (-1) v = p at *
  generalize facePt 1 v' = q at *
  have d0 : dot p q = p.x * q.x * (v * v') := by unfold dot; rw [x1, x2, y1, y2]; ring
  have up' : p.x ^ 2 * (2 + v ^ 2) = 1 := by unfold UnitV dot at up; rw [x1, x2] at up; linarith
  have uq' : q.x ^ 2 * (2 + v' ^ 2) = 1 := by unfold UnitV dot at uq; rw [y1, y2] at uq; linarith
  have sv : v ^ 2 ≤ 1 := by rw [← sq_abs]; have := abs_nonneg v; nlinarith
  have sv' : v' ^ 2 ≤ 1 := by rw [← sq_abs]; have := abs_nonneg v'; nlinarith
  have a1 : (p.x * v) ^ 2 ≤ 1 / 3 := by nlinarith [sq_nonneg p.x]
  have a2 : (q.x * v') ^ 2 ≤ 1 / 3 := by nlinarith [sq_nonneg q.x]
  have d1 : dot p q ≤ 1 / 3 := by rw [d0]; nlinarith [sq_nonneg (p.x * v - q.x * v')]
  by_contra hc
  push Not at hc
  have sq2 : √2 ^ 2 = 2 := Real.sq_sqrt (by norm_num)
  have s3 : √2 ≤ 3 / 2 := by rw [Real.sqrt_le_left (by norm_num)]; norm_num
  have k1 := Real.cos_lt_cos_of_nonneg_of_le_pi (ang_nonneg p q) (by linarith [Real.pi_gt_three]) hc
  have k2 := Real.one_sub_sq_div_two_le_cos (x := √2 / 3 * 2)
  rw [show (√2 / 3 * 2) ^ 2 = √2 ^ 2 * (4 / 9) by ring, sq2] at k2
  linarith

/-- A sine bounds the angle. -/
theorem le_ang_of_cross {p q : Vec ℝ} (hp : UnitV p) (hq : UnitV q) {w : ℝ} (h : w ^ 2 ≤ dot (cross p q) (cross p q)) : w ≤ ang p q := by
  have e : dot (cross p q) (cross p q) = 1 - dot p q ^ 2 := by
    have : dot (cross p q) (cross p q) = dot p p * dot q q - dot p q ^ 2 := by simp only [dot, cross]; ring
    rw [this, hp, hq]; ring
  rw [e, ← cos_ang hp hq] at h
  have k := Real.sin_sq_add_cos_sq (ang p q)
  have s0 : 0 ≤ Real.sin (ang p q) := Real.sin_nonneg_of_nonneg_of_le_pi (ang_nonneg _ _) (ang_le_pi _ _)
  have : w ≤ Real.sin (ang p q) := by nlinarith
  exact this.trans (Real.sin_le (ang_nonneg p q))

/-- Diagonals: one coordinate in a half of the face. -/
theorem half_diff {s d : ℝ} (h0 : -1 ≤ s) (hd : 0 < d) (h1 : s + d ≤ 1) (hh : 0 ≤ s ∨ s + d ≤ 0) :
    gUV (s + d) - gUV s = d * (|s| + |s + d| + 2) / 3 ∧ |s| ≤ 1 ∧ |s + d| ≤ 1 := by
  rcases hh with h | h
  · rw [abs_of_nonneg h, abs_of_nonneg (show 0 ≤ s + d by linarith)]
    refine ⟨?_, by linarith, h1⟩
    unfold gUV
    rw [abs_of_nonneg h, abs_of_nonneg (show 0 ≤ s + d by linarith)]
    ring
  · rw [abs_of_nonpos (show s ≤ 0 by linarith), abs_of_nonpos h]
    refine ⟨?_, by linarith, by linarith⟩
    unfold gUV
    rw [abs_of_nonpos (show s ≤ 0 by linarith), abs_of_nonpos h]
    ring

theorem diag_core {u0 u1 v0 v1 a b c e d : ℝ} (ha : 0 ≤ a) (hb : 0 ≤ b) (hc : 0 ≤ c) (he : 0 ≤ e) (ha1 : a ≤ 1) (hb1 : b ≤ 1) (hc1 : c ≤ 1) (he1 : e ≤ 1)
    (hu : (u1 - u0) ^ 2 = (d * (a + b + 2) / 3) ^ 2) (hv : (v1 - v0) ^ 2 = (d * (c + e + 2) / 3) ^ 2)
    (k1 : u0 ^ 2 ≤ a) (k2 : u1 ^ 2 ≤ b) (k3 : v0 ^ 2 ≤ c) (k4 : v1 ^ 2 ≤ e) :
    32 / 81 * d ^ 2 * ((1 + u0 ^ 2 + v0 ^ 2) * (1 + u1 ^ 2 + v1 ^ 2)) ≤ (u1 - u0) ^ 2 + (v1 - v0) ^ 2 := by
  rw [hu, hv]
  obtain ⟨X, hX⟩ : ∃ X, X = 1 + u0 ^ 2 + v0 ^ 2 := ⟨_, rfl⟩
  obtain ⟨Y, hY⟩ : ∃ Y, Y = 1 + u1 ^ 2 + v1 ^ 2 := ⟨_, rfl⟩
  rw [← hX, ← hY]
  obtain ⟨S, hS⟩ : ∃ S, S = a + b + c + e := ⟨_, rfl⟩
  have XY : X + Y ≤ 2 + S := by linarith
  have X1 : 1 ≤ X := by rw [hX]; nlinarith [sq_nonneg u0, sq_nonneg v0]
  have Y1 : 1 ≤ Y := by rw [hY]; nlinarith [sq_nonneg u1, sq_nonneg v1]
  have p1 : 4 * (X * Y) ≤ (2 + S) ^ 2 := by nlinarith [sq_nonneg (X - Y)]
  have p2 : (4 * (2 + S)) ^ 2 ≤ (3 * (S + 4)) ^ 2 := pow_le_pow_left₀ (by linarith) (by linarith) 2
  have p3 : (S + 4) ^ 2 ≤ 2 * ((a + b + 2) ^ 2 + (c + e + 2) ^ 2) := by rw [hS]; nlinarith [sq_nonneg (a + b - c - e)]
  have p4 : 32 / 9 * (X * Y) ≤ (a + b + 2) ^ 2 + (c + e + 2) ^ 2 := by linarith
  have := mul_le_mul_of_nonneg_left p4 (show 0 ≤ d ^ 2 / 9 by positivity)
  linarith

theorem diag_ge_of {u0 u1 v0 v1 d : ℝ} (hd : 0 < d)
    (h : 32 / 81 * d ^ 2 * ((1 + u0 ^ 2 + v0 ^ 2) * (1 + u1 ^ 2 + v1 ^ 2)) ≤ (u1 - u0) ^ 2 + (v1 - v0) ^ 2) :
    4 * √2 / 9 * d ≤ ang (facePt u0 v0) (facePt u1 v1) := by
  have sq2 : √2 ^ 2 = 2 := Real.sq_sqrt (by norm_num)
  refine le_ang_of_cross (facePt_unit _ _) (facePt_unit _ _) ?_
  obtain ⟨r0, r1⟩ := face_r u0 v0
  obtain ⟨q0, q1⟩ := face_r u1 v1
  rw [show (4 * √2 / 9 * d) ^ 2 = √2 ^ 2 * (16 / 81) * d ^ 2 by ring, sq2]
  unfold facePt
  generalize √(1 + u0 ^ 2 + v0 ^ 2) = r at *
  generalize √(1 + u1 ^ 2 + v1 ^ 2) = q at *
  have e : dot (cross (⟨1 / r, u0 / r, v0 / r⟩ : Vec ℝ) ⟨1 / q, u1 / q, v1 / q⟩) (cross (⟨1 / r, u0 / r, v0 / r⟩ : Vec ℝ) ⟨1 / q, u1 / q, v1 / q⟩) =
      ((u1 - u0) ^ 2 + (v1 - v0) ^ 2 + (u0 * v1 - v0 * u1) ^ 2) / (r ^ 2 * q ^ 2) := by
    simp only [dot, cross]
    field_simp
    ring
  rw [e, le_div_iff₀ (by positivity), r1, q1]
  nlinarith [sq_nonneg (u0 * v1 - v0 * u1)]

/-- The two diagonals of a square in a quarter of the face. -/
theorem face_diag_ge {s t d : ℝ} (hd : 0 < d) (s0 : -1 ≤ s) (s1 : s + d ≤ 1) (hs : 0 ≤ s ∨ s + d ≤ 0) (t0 : -1 ≤ t) (t1 : t + d ≤ 1)
    (ht : 0 ≤ t ∨ t + d ≤ 0) :
    4 * √2 / 9 * d ≤ ang (facePt (gUV s) (gUV t)) (facePt (gUV (s + d)) (gUV (t + d))) ∧
    4 * √2 / 9 * d ≤ ang (facePt (gUV (s + d)) (gUV t)) (facePt (gUV s) (gUV (t + d))) := by
  obtain ⟨e1, a1, b1⟩ := half_diff s0 hd s1 hs
  obtain ⟨e2, a2, b2⟩ := half_diff t0 hd t1 ht
  constructor
  · exact diag_ge_of hd (diag_core (abs_nonneg s) (abs_nonneg (s + d)) (abs_nonneg t) (abs_nonneg (t + d)) a1 b1 a2 b2 (by rw [e1]) (by rw [e2])
      (gUV_sq_le a1) (gUV_sq_le b1) (gUV_sq_le a2) (gUV_sq_le b2))
  · exact diag_ge_of hd (diag_core (abs_nonneg (s + d)) (abs_nonneg s) (abs_nonneg t) (abs_nonneg (t + d)) b1 a1 a2 b2
      (by rw [show gUV s - gUV (s + d) = -(gUV (s + d) - gUV s) by ring, neg_sq, e1, add_comm |s + d| |s|]) (by rw [e2])
      (gUV_sq_le b1) (gUV_sq_le a1) (gUV_sq_le a2) (gUV_sq_le b2))

/-- The diagonals of a face. -/
theorem face_diag_face : 4 * √2 / 9 * 2 ≤ ang (facePt (gUV (-1)) (gUV (-1))) (facePt (gUV 1) (gUV 1)) ∧
    4 * √2 / 9 * 2 ≤ ang (facePt (gUV 1) (gUV (-1))) (facePt (gUV (-1)) (gUV 1)) := by
  have key : ∀ p q : Vec ℝ, dot p q ≤ 0 → 4 * √2 / 9 * 2 ≤ ang p q := by
    intro p q h
    have : Real.pi / 2 ≤ ang p q := by
      unfold ang
      rw [← Real.arccos_zero]
      exact Real.arccos_le_arccos h
    have s3 : √2 ≤ 3 / 2 := by rw [Real.sqrt_le_left (by norm_num)]; norm_num
    linarith [Real.pi_gt_three]
  rw [gUV_one, gUV_negOne]
  obtain ⟨r0, -⟩ := face_r 1 1
  have pos : 0 < 1 / √(1 + (1 : ℝ) ^ 2 + 1 ^ 2) := by positivity
  constructor <;> refine key _ _ ?_ <;> simp only [dot, facePt, neg_sq, one_pow, neg_div, neg_mul, mul_neg] <;>
    nlinarith [mul_self_nonneg (1 / √(1 + 1 + 1 : ℝ))]

/-! ## Angles between lines -/

/-- The angle between the planes of two lines, from the coordinates of the lines. -/
theorem span_bounds {s s' : ℝ} (h0 : -1 ≤ s) (h : s ≤ s') (h1 : s' ≤ 1) :
    2 / 3 * (s' - s) ≤ Real.arctan (gUV s') - Real.arctan (gUV s) ∧
    Real.arctan (gUV s') - Real.arctan (gUV s) ≤ 3839087150473305 / 2 ^ 51 / 2 * (s' - s) := by
  have hd : ∀ x, HasDerivAt (fun x => Real.arctan (gUV x)) (1 / (1 + gUV x ^ 2) * (2 * (1 + |x|) / 3)) x := fun x => (gUV_deriv x).arctan
  have diffb : Differentiable ℝ (fun x => Real.arctan (gUV x)) := fun x => (hd x).differentiableAt
  constructor
  · refine (convex_Icc (-1 : ℝ) 1).mul_sub_le_image_sub_of_le_deriv (f := fun x => Real.arctan (gUV x)) diffb.continuous.continuousOn diffb.differentiableOn
      (fun x hx => ?_) s ⟨h0, by linarith⟩ s' ⟨by linarith, h1⟩ h
    rw [interior_Icc] at hx
    have hx1 : |x| ≤ 1 := abs_le.2 ⟨hx.1.le, hx.2.le⟩
    rw [(hd x).deriv]
    have k := gUV_sq_le hx1
    rw [one_div, inv_mul_eq_div, le_div_iff₀ (by positivity)]
    linarith
  · refine (convex_Icc (-1 : ℝ) 1).image_sub_le_mul_sub_of_deriv_le (f := fun x => Real.arctan (gUV x)) diffb.continuous.continuousOn diffb.differentiableOn
      (fun x hx => ?_) s ⟨h0, by linarith⟩ s' ⟨by linarith, h1⟩ h
    rw [(hd x).deriv]
    have k := line_speed (s := x) (v := 0) (a := 1) (by rw [interior_Icc] at hx; exact abs_le.2 ⟨hx.1.le, hx.2.le⟩)
    rw [one_div, inv_mul_eq_div, div_le_iff₀ (by positivity)]
    have k2 : (2 * (1 + |x|) / 3) ^ 2 ≤ (3839087150473305 / 2 ^ 51 / 2 * (1 + gUV x ^ 2)) ^ 2 := by linarith
    exact le_of_sq_le_sq k2 (by positivity)

end Verif
