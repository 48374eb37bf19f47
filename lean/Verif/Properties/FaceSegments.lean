import Verif.Proofs.FaceWalk

/-!
# C113: the segments of an edge on the cube faces (`face_segments`)

Exact arithmetic: every rounding is the identity. The specification follows the curve `arcPt a T t = cos t · a + sin t · T`
(`Spec.arcPt`, `Spec.At`, `Spec.Chain` in `Verif/Proofs/FaceWalk.lean`), and does not mention the faces that the loop chooses.
-/

namespace Verif
open Spec EdgeClip

namespace Spec

/-- The point at the fraction `l` of the way from `p` to `q`. -/
def between (p q : R2.Point ℝ) (l : ℝ) : R2.Point ℝ := ⟨(1 - l) * p.x + l * q.x, (1 - l) * p.y + l * q.y⟩

end Spec

theorem project_ok {P : Vec ℝ} (h : ¬ IsZero P) : ∃ u v, xyzToFaceUV _root_.id P = some (vecFace P, u, v) ∧
    ∀ A T t, P = arcPt A T t → At A T (vecFace P) ⟨u, v⟩ t := by
  obtain ⟨f, u, v, w, t, h1, h2, h3, h4⟩ := c60_projection h
  have hf : f = vecFace P := by
    unfold xyzToFaceUV at h1
    simp only [Option.bind_eq_bind] at h1
    obtain ⟨x, -, h6⟩ := Option.bind_eq_some_iff.mp h1
    simp only [Option.some.injEq, Prod.mk.injEq] at h6
    exact h6.1.symm
  obtain ⟨l6, hc⟩ := vecFace_cone h
  rw [hf] at h1 h2
  refine ⟨u, v, h1, ?_⟩
  have hw : w = cubeXYZ (vecFace P) u v := by
    rw [cubeXYZ_eq l6] at h2
    exact (Option.some.inj h2).symm
  have hcw : Cone (vecFace P) w := by
    have h5 := hc
    rw [h4, cone_smul (h4 ▸ l6) h3] at h5
    rw [← h4] at h5
    exact h5
  intro A T s hs
  unfold Cone at hcw
  rw [hw, uvw_cubeXYZ l6] at hcw
  refine ⟨abs_le.mpr ⟨hcw.2.1, hcw.2.2.1⟩, abs_le.mpr ⟨hcw.2.2.2.1, hcw.2.2.2.2⟩, w, t⁻¹, h2, inv_pos.mpr h3, ?_⟩
  rw [← hs, h4]
  have ht := h3.ne'
  obtain ⟨x, y, z⟩ := w
  simp only [smul]
  refine vec_mk ?_ ?_ ?_ <;> field_simp

/-- The two endpoints and the normal of the edge determine the curve. -/
theorem edge_frame {sqrt : ℝ → ℝ} (hs : IsSqrt sqrt) {a b : Vec ℝ} (ha : UnitV a) (hb : UnitV b) (hne : a ≠ b) :
    ∃ T c, Frame a T ∧ 0 < c ∧ b = arcPt a T (ang a b) ∧ Vec.pointCross _root_.id sqrt a b = smul c (cross a T) := by
  have hz : ¬ IsZero a := by
    rintro ⟨z1, z2, z3⟩
    unfold UnitV dot at ha
    rw [z1, z2, z3] at ha
    norm_num at ha
  obtain ⟨-, -, -, p4, p5⟩ := c74_pointCross hs hz (show dot a a = dot b b from ha.trans hb.symm)
  by_cases hx : IsZero (cross a b)
  · obtain ⟨q1, q2⟩ := p5 hx
    have hb' : b = smul (-1) a := q1.resolve_left (fun h => hne h.symm)
    obtain ⟨o1, o2⟩ := c74_ortho hs hz
    rw [q2]
    generalize Vec.ortho _root_.id sqrt a = N at *
    have e1 : dot a (cross N a) = 0 := by simp only [dot, cross]; ring
    have e2 : UnitV (cross N a) := by
      unfold UnitV at *
      rw [binet, o2, ha, o1, dot_comm, o1]
      norm_num
    refine ⟨cross N a, 1, ⟨ha, e2, e1⟩, one_pos, ?_, ?_⟩
    · have hang : ang a b = Real.pi := by
        unfold ang
        have : dot a b = -1 := by
          rw [hb']
          have : dot a (smul (-1) a) = -dot a a := by simp only [dot, smul]; ring
          rw [this]
          unfold UnitV at ha
          rw [ha]
        rw [this, Real.arccos_neg_one]
      rw [hang, hb']
      unfold arcPt
      rw [Real.cos_pi, Real.sin_pi]
      simp only [smul, lin]
      refine vec_mk ?_ ?_ ?_ <;> ring
    · unfold UnitV at ha
      have k : cross a (cross N a) = lin (dot a a) N (-dot N a) a := by
        simp only [cross, dot, lin]
        refine vec_mk ?_ ?_ ?_ <;> ring
      rw [k, ha, o1]
      obtain ⟨x, y, z⟩ := N
      simp only [smul, lin]
      refine vec_mk ?_ ?_ ?_ <;> ring
  · obtain ⟨T, t1, t2, t3⟩ := exists_dir ha hb
    have hcr : cross a b = smul (Real.sin (ang a b)) (cross a T) := by
      conv_lhs => rw [t3]
      simp only [cross, lin, smul]
      refine vec_mk ?_ ?_ ?_ <;> ring
    have h0 := Real.sin_nonneg_of_nonneg_of_le_pi (ang_nonneg a b) (ang_le_pi a b)
    have hpos : 0 < Real.sin (ang a b) := by
      rcases h0.lt_or_eq with h | h
      · exact h
      · exfalso
        apply hx
        rw [hcr, ← h]
        simp [IsZero, smul]
    refine ⟨T, 2 * Real.sin (ang a b), ⟨ha, t1, t2⟩, by linarith, t3, ?_⟩
    rw [p4 hx, hcr]
    simp only [smul]
    refine vec_mk ?_ ?_ ?_ <;> ring

/-- For any two points, also antipodal ones, the walk from face to face ends. The segments follow the shortest great circle from `a` to `b`,
each one starts where the previous one ends, and all points are on the faces. The first face is the face of `a`, the last one the face of
`b`, and no face comes twice. -/
theorem c113_segments {sqrt : ℝ → ℝ} (hs : IsSqrt sqrt) {neg : ℝ → Bool} (hneg : SignBit neg) (sqrt2 : ℝ) {a b : Vec ℝ}
    (ha : UnitV a) (hb : UnitV b) :
    ∃ T segs, Frame a T ∧ b = arcPt a T (ang a b) ∧ faceSegments _root_.id sqrt neg sqrt2 a b = some segs ∧
      Chain a T (ang a b) 0 segs ∧ (segs.map (·.face)).Nodup ∧ segs.length ≤ 6 ∧
      (segs.map (·.face)).head? = some (vecFace a) ∧ (segs.map (·.face)).getLast? = some (vecFace b) := by
  have nz : ∀ p : Vec ℝ, UnitV p → ¬ IsZero p := by
    rintro p hp ⟨z1, z2, z3⟩
    unfold UnitV dot at hp
    rw [z1, z2, z3] at hp
    norm_num at hp
  obtain ⟨au, av, ea, ata⟩ := project_ok (nz a ha)
  obtain ⟨bu, bv, eb, atb⟩ := project_ok (nz b hb)
  obtain ⟨la, ca⟩ := vecFace_cone (nz a ha)
  obtain ⟨lb, cb⟩ := vecFace_cone (nz b hb)
  have a0 : ∀ T, a = arcPt a T 0 := by
    intro T
    unfold arcPt
    rw [Real.cos_zero, Real.sin_zero]
    obtain ⟨x, y, z⟩ := a
    simp only [lin]
    refine vec_mk ?_ ?_ ?_ <;> ring
  unfold faceSegments
  rw [ea, eb]
  simp only [Option.bind_eq_bind, Option.bind_some]
  by_cases hf : vecFace a = vecFace b
  · rw [if_pos hf]
    obtain ⟨T, t1, t2, t3⟩ := exists_dir ha hb
    refine ⟨T, _, ⟨ha, t1, t2⟩, t3, rfl, ⟨ang a b, ang_nonneg a b, ata a T 0 (a0 T), ?_, rfl⟩, by simp, by simp, by simp, by simp [hf]⟩
    rw [hf]
    exact atb a T _ t3
  · rw [if_neg hf]
    have hne : a ≠ b := fun h => hf (by rw [h])
    obtain ⟨T, c, hF, hc, hbT, hN⟩ := edge_frame hs ha hb hne
    have hnn := normal_ne hF hc
    have hna : dot (smul c (cross a T)) a = 0 := by
      have := normal_arc a T c 0
      rwa [← a0 T] at this
    have hnb : dot (smul c (cross a T)) b = 0 := by
      have := normal_arc a T c (ang a b)
      rwa [← hbT] at this
    rw [hN, moveOrigin_ok hs hneg sqrt2 la ha ca hnn hna ⟨au, av⟩]
    have hN2 : ∀ M : Vec ℝ, ¬ IsZero M → ¬ IsZero (M.scale _root_.id (-1)) := by
      rintro M hM ⟨z1, z2, z3⟩
      simp only [Vec.scale, _root_.id] at z1 z2 z3
      exact hM ⟨by linarith, by linarith, by linarith⟩
    have hd2 : ∀ M : Vec ℝ, dot M b = 0 → dot (M.scale _root_.id (-1)) b = 0 := by
      intro M h
      have : dot (M.scale _root_.id (-1)) b = -dot M b := by simp only [dot, Vec.scale, _root_.id]; ring
      rw [this, h, neg_zero]
    simp only [Option.bind_some]
    rw [moveOrigin_ok hs hneg sqrt2 lb hb cb (hN2 _ hnn) (hd2 _ hnb) ⟨bu, bv⟩]
    simp only [Option.bind_some]
    obtain ⟨segs, q1, q2, q3, -, q5, q6⟩ := loop_ok hF hc (ang_le_pi a b) hneg (atb a T _ hbT) 6 (vecFace a) ∅ 0 ⟨vecFace a, ⟨au, av⟩, ⟨bu, bv⟩⟩
      la (by simp) (by simp) (by simp) le_rfl (ang_nonneg a b) rfl (ata a T 0 (a0 T)) (by simp)
      (fun _ h1 h2 => hf (vecFace_tie (nz a ha) (nz b hb) (by rw [a0 T]; exact h1) (by rw [← hbT] at h2; exact h2)))
    refine ⟨T, segs, hF, hbT, q1, q2, q3, ?_, q5, q6⟩
    have hlt : ∀ (l : List (FaceSegment ℝ)) s, Chain a T (ang a b) s l → ∀ x ∈ l, x.face < 6 := by
      intro l
      induction l with
      | nil => intro s _ x hx; cases hx
      | cons g l ih =>
        rintro s ⟨e, -, h1, -, h2⟩ x hx
        rcases List.mem_cons.mp hx with rfl | hx
        · exact at_lt h1
        · exact ih e h2 x hx
    have h1 : (segs.map (·.face)).toFinset ⊆ Finset.range 6 := by
      intro x hx
      obtain ⟨y, y1, y2⟩ := List.mem_map.mp (List.mem_toFinset.mp hx)
      rw [← y2]
      exact Finset.mem_range.mpr (hlt segs 0 q2 y y1)
    have h2 := Finset.card_le_card h1
    rw [List.toFinset_card_of_nodup q3, List.length_map, Finset.card_range] at h2
    exact h2

/-! ## The segments and the points of the edge -/

theorem cubeXYZ_between {f : Nat} (hf : f < 6) (p q : R2.Point ℝ) (l : ℝ) :
    cubeXYZ f (between p q l).x (between p q l).y = lin (1 - l) (cubeXYZ f p.x p.y) l (cubeXYZ f q.x q.y) := by
  interval_cases f <;> simp only [cubeXYZ, between, lin] <;> refine vec_mk ?_ ?_ ?_ <;> ring

theorem between_le {p q : R2.Point ℝ} {l : ℝ} (h0 : 0 ≤ l) (h1 : l ≤ 1) (hp : |p.x| ≤ 1 ∧ |p.y| ≤ 1) (hq : |q.x| ≤ 1 ∧ |q.y| ≤ 1) :
    |(between p q l).x| ≤ 1 ∧ |(between p q l).y| ≤ 1 := by
  obtain ⟨a, b⟩ := hp
  obtain ⟨c, d⟩ := hq
  have a := abs_le.mp a
  have b := abs_le.mp b
  have c := abs_le.mp c
  have d := abs_le.mp d
  have := sub_nonneg.mpr h1
  refine ⟨abs_le.mpr ⟨?_, ?_⟩, abs_le.mpr ⟨?_, ?_⟩⟩ <;> simp only [between] <;> nlinarith

/-- The same point of the curve is at the same point of the cube. -/
theorem at_unique {A T : Vec ℝ} {f g : Nat} {p q : R2.Point ℝ} {t : ℝ} (hp : At A T f p t) (hq : At A T g q t) :
    faceUVtoXYZ f p.x p.y = faceUVtoXYZ g q.x q.y := by
  have hf := at_lt hp
  have hg := at_lt hq
  have cf := at_cone hp
  have cg := at_cone hq
  obtain ⟨-, -, P, r, p3, p4, p5⟩ := hp
  obtain ⟨-, -, Q, w, q3, q4, q5⟩ := hq
  rw [p3, q3]
  rw [cubeXYZ_eq hf] at p3
  rw [cubeXYZ_eq hg] at q3
  have e1 : (uvw f P).z = 1 := by rw [← Option.some.inj p3, uvw_cubeXYZ hf]
  have e2 : (uvw g Q).z = 1 := by rw [← Option.some.inj q3, uvw_cubeXYZ hg]
  have e3 := le_antisymm (cone_max hf hg cf) (cone_max hg hf cg)
  rw [p5, uvw_smul hf] at e1
  rw [q5, uvw_smul hg] at e2
  simp only [smul] at e1 e2
  rw [e3] at e2
  have hrw : r = w := by
    have : (uvw f (arcPt A T t)).z ≠ 0 := cf.1.ne'
    exact mul_right_cancel₀ this (e1.trans e2.symm)
  rw [p5, q5, hrw]

theorem cubeXYZ_injective {f : Nat} (hf : f < 6) {p q : R2.Point ℝ} (h : faceUVtoXYZ f p.x p.y = faceUVtoXYZ f q.x q.y) : p = q := by
  rw [cubeXYZ_eq hf, cubeXYZ_eq hf] at h
  have h2 := congrArg (uvw f) (Option.some.inj h)
  rw [uvw_cubeXYZ hf, uvw_cubeXYZ hf] at h2
  obtain ⟨x, y⟩ := p
  obtain ⟨z, w⟩ := q
  simp only [Vec.mk.injEq] at h2
  rw [h2.1, h2.2.1]

/-- A segment of a face is an arc of the curve. -/
theorem segment_arc {A T : Vec ℝ} (hF : Frame A T) {f : Nat} {p q : R2.Point ℝ} {s e : ℝ} (hs0 : 0 ≤ s) (hse : s ≤ e) (he : e ≤ Real.pi)
    (hp : At A T f p s) (hq : At A T f q e) :
    (∀ t, s ≤ t → t ≤ e → ∃ l, 0 ≤ l ∧ l ≤ 1 ∧ At A T f (between p q l) t) ∧
    (∀ l, 0 ≤ l → l ≤ 1 → ∃ t, s ≤ t ∧ t ≤ e ∧ At A T f (between p q l) t) := by
  have hpi := Real.pi_pos
  have hf := at_lt hp
  have cp := at_cone hp
  have cq := at_cone hq
  rcases hse.lt_or_eq with hlt | heq
  swap
  · subst heq
    obtain rfl := cubeXYZ_injective hf (at_unique hp hq)
    have hb : ∀ l, between p p l = p := by
      intro l
      obtain ⟨x, y⟩ := p
      simp only [between, R2.Point.mk.injEq]
      constructor <;> ring
    refine ⟨fun t t1 t2 => ⟨0, le_rfl, zero_le_one, ?_⟩, fun l _ _ => ⟨s, le_rfl, le_rfl, ?_⟩⟩
    · rw [hb, le_antisymm t2 t1]
      exact hp
    · rw [hb]
      exact hp
  have hlt2 : e < s + Real.pi := by
    rcases (show e ≤ s + Real.pi by linarith).lt_or_eq with h | h
    · exact h
    · rw [h] at cq
      exact absurd cq (cone_opposite hf cp)
  have s1 : 0 < Real.sin (e - s) := Real.sin_pos_of_pos_of_lt_pi (by linarith) (by linarith)
  obtain ⟨p1, p2, P, r, p3, p4, p5⟩ := hp
  obtain ⟨q1, q2, Q, w, q3, q4, q5⟩ := hq
  rw [cubeXYZ_eq hf] at p3 q3
  have hL : ∀ l, faceUVtoXYZ f (between p q l).x (between p q l).y = some (lin (1 - l) P l Q) := by
    intro l
    rw [cubeXYZ_eq hf, cubeXYZ_between hf, Option.some.inj p3, Option.some.inj q3]
  constructor
  · intro t t1 t2
    have s2 : 0 ≤ Real.sin (e - t) := Real.sin_nonneg_of_nonneg_of_le_pi (by linarith) (by linarith)
    have s3 : 0 ≤ Real.sin (t - s) := Real.sin_nonneg_of_nonneg_of_le_pi (by linarith) (by linarith)
    have hb := arc_between A T s t e
    obtain ⟨X, hX⟩ : ∃ X, X = Real.sin (e - t) / r := ⟨_, rfl⟩
    obtain ⟨Y, hY⟩ : ∃ Y, Y = Real.sin (t - s) / w := ⟨_, rfl⟩
    have X0 : 0 ≤ X := by rw [hX]; positivity
    have Y0 : 0 ≤ Y := by rw [hY]; positivity
    have hD : 0 < X + Y := by
      rcases t1.lt_or_eq with h | h
      · have : 0 < Real.sin (t - s) := Real.sin_pos_of_pos_of_lt_pi (by linarith) (by linarith)
        have : 0 < Y := by rw [hY]; exact div_pos this q4
        linarith
      · have : 0 < Real.sin (e - t) := Real.sin_pos_of_pos_of_lt_pi (by linarith) (by linarith)
        have : 0 < X := by rw [hX]; exact div_pos this p4
        linarith
    have hl1 : Y / (X + Y) ≤ 1 := (div_le_one hD).mpr (by linarith)
    have hl0 : 0 ≤ Y / (X + Y) := div_nonneg Y0 hD.le
    refine ⟨Y / (X + Y), hl0, hl1, ?_⟩
    obtain ⟨b1, b2⟩ := between_le hl0 hl1 ⟨p1, p2⟩ ⟨q1, q2⟩
    refine ⟨b1, b2, _, Real.sin (e - s) / (X + Y), hL _, div_pos s1 hD, ?_⟩
    have hl : 1 - Y / (X + Y) = X / (X + Y) := by
      rw [eq_div_iff hD.ne']
      field_simp
      ring
    have e1 : Real.sin (e - t) = X * r := by rw [hX]; field_simp
    have e2 : Real.sin (t - s) = Y * w := by rw [hY]; field_simp
    rw [e1, e2] at hb
    rw [hl, p5, q5]
    have hcomp : ∀ x y z : ℝ, Real.sin (e - s) * z = X * r * x + Y * w * y →
        X / (X + Y) * (r * x) + Y / (X + Y) * (w * y) = Real.sin (e - s) / (X + Y) * z := by
      intro x y z h
      have h3 := hD.ne'
      field_simp
      linear_combination -h
    have k1 := congrArg Vec.x hb
    have k2 := congrArg Vec.y hb
    have k3 := congrArg Vec.z hb
    simp only [smul, lin] at k1 k2 k3 ⊢
    exact vec_mk (hcomp _ _ _ k1) (hcomp _ _ _ k2) (hcomp _ _ _ k3)
  · intro l l0 l1
    obtain ⟨b1, b2⟩ := between_le l0 l1 ⟨p1, p2⟩ ⟨q1, q2⟩
    have hw := uvw_cubeXYZ hf (between p q l).x (between p q l).y
    have hcube := hL l
    rw [cubeXYZ_eq hf] at hcube
    rw [Option.some.inj hcube] at hw
    have hLc : Cone f (lin (1 - l) P l Q) := by
      unfold Cone
      rw [hw]
      have h1 := abs_le.mp b1
      have h2 := abs_le.mp b2
      exact ⟨one_pos, h1.1, h1.2, h2.1, h2.2⟩
    have hLz : ¬ IsZero (lin (1 - l) P l Q) := by
      rintro ⟨z1, z2, z3⟩
      have h1 : dot (uvw f (lin (1 - l) P l Q)) (uvw f (lin (1 - l) P l Q)) = 0 := by
        rw [dot_uvw hf]
        unfold dot
        rw [z1, z2, z3]
        ring
      rw [hw] at h1
      unfold dot at h1
      nlinarith [mul_self_nonneg (between p q l).x, mul_self_nonneg (between p q l).y]
    have hLn : dot (smul 1 (cross A T)) (lin (1 - l) P l Q) = 0 := by
      rw [dot_comm, dot_lin, p5, q5]
      have k : ∀ u t, dot (smul u (arcPt A T t)) (smul 1 (cross A T)) = u * dot (smul 1 (cross A T)) (arcPt A T t) := by
        intro u t
        simp only [dot, smul]
        ring
      rw [k, k, normal_arc, normal_arc]
      ring
    obtain ⟨v, t, hv, hst, hts, hLt⟩ := on_arc hF one_pos hs0 (hse.trans he) hLz hLn
    have t1 : v * Real.sin (t - s) = l * w * Real.sin (e - s) := by
      have h1 := turn_arc hF 1 s t
      have h2 := turn_arc hF 1 s e
      have h3 := turn_arc hF 1 s s
      have h4 : dot (smul 1 (cross A T)) (cross (arcPt A T s) (lin (1 - l) P l Q)) =
          (1 - l) * r * dot (smul 1 (cross A T)) (cross (arcPt A T s) (arcPt A T s)) +
            l * w * dot (smul 1 (cross A T)) (cross (arcPt A T s) (arcPt A T e)) := by
        rw [p5, q5]
        simp only [dot, smul, cross, lin]
        ring
      have h5 : dot (smul 1 (cross A T)) (cross (arcPt A T s) (smul v (arcPt A T t))) =
          v * dot (smul 1 (cross A T)) (cross (arcPt A T s) (arcPt A T t)) := by
        simp only [dot, smul, cross]
        ring
      rw [hLt, h5, h1, h2, h3, sub_self, Real.sin_zero] at h4
      linarith
    have t2 : v * Real.sin (e - t) = (1 - l) * r * Real.sin (e - s) := by
      have h1 := turn_arc hF 1 t e
      have h2 := turn_arc hF 1 s e
      have h3 := turn_arc hF 1 e e
      have h4 : dot (smul 1 (cross A T)) (cross (lin (1 - l) P l Q) (arcPt A T e)) =
          (1 - l) * r * dot (smul 1 (cross A T)) (cross (arcPt A T s) (arcPt A T e)) +
            l * w * dot (smul 1 (cross A T)) (cross (arcPt A T e) (arcPt A T e)) := by
        rw [p5, q5]
        simp only [dot, smul, cross, lin]
        ring
      have h5 : dot (smul 1 (cross A T)) (cross (smul v (arcPt A T t)) (arcPt A T e)) =
          v * dot (smul 1 (cross A T)) (cross (arcPt A T t) (arcPt A T e)) := by
        simp only [dot, smul, cross]
        ring
      rw [hLt, h5, h1, h2, h3, sub_self, Real.sin_zero] at h4
      linarith
    have n1 : 0 ≤ Real.sin (t - s) := by
      have : 0 ≤ v * Real.sin (t - s) := by rw [t1]; positivity
      exact nonneg_of_mul_nonneg_right this hv
    have n2 : 0 ≤ Real.sin (e - t) := by
      have : 0 ≤ v * Real.sin (e - t) := by
        rw [t2]
        exact mul_nonneg (mul_nonneg (by linarith) p4.le) s1.le
      exact nonneg_of_mul_nonneg_right this hv
    have hct : Cone f (arcPt A T t) := by
      rw [← cone_smul hf hv, ← hLt]
      exact hLc
    have hts2 : t < s + Real.pi := by
      rcases lt_trichotomy t (s + Real.pi) with h | h | h
      · exact h
      · rw [h] at hct
        exact absurd hct (cone_opposite hf cp)
      · exfalso
        have h2 : Real.sin (t - s - Real.pi) = -Real.sin (t - s) := Real.sin_sub_pi _
        have h3 : 0 < Real.sin (t - s - Real.pi) := Real.sin_pos_of_pos_of_lt_pi (by linarith) (by linarith)
        linarith
    refine ⟨t, hst, ?_, b1, b2, _, v, hL l, hv, hLt⟩
    by_contra hlt'
    rw [not_le] at hlt'
    have : 0 < Real.sin (t - e) := Real.sin_pos_of_pos_of_lt_pi (by linarith) (by linarith)
    rw [← neg_sub, Real.sin_neg] at this
    linarith

theorem chain_le {A T : Vec ℝ} {β : ℝ} : ∀ {l : List (FaceSegment ℝ)} {s}, Chain A T β s l → s ≤ β
  | [], _, h => le_of_eq h
  | _ :: _, _, ⟨_, h1, _, _, h2⟩ => h1.trans (chain_le h2)

theorem chain_cover {A T : Vec ℝ} (hF : Frame A T) {β : ℝ} (hβ : β ≤ Real.pi) {l : List (FaceSegment ℝ)} {s : ℝ} (hs : 0 ≤ s) (hl : l ≠ [])
    (h : Chain A T β s l) :
    (∀ t, s ≤ t → t ≤ β → ∃ g ∈ l, ∃ x, 0 ≤ x ∧ x ≤ 1 ∧ At A T g.face (between g.a g.b x) t) ∧
    (∀ g ∈ l, ∀ x, 0 ≤ x → x ≤ 1 → ∃ t, s ≤ t ∧ t ≤ β ∧ At A T g.face (between g.a g.b x) t) := by
  induction l generalizing s with
  | nil => exact absurd rfl hl
  | cons g l ih =>
    obtain ⟨e, h1, h2, h3, h4⟩ := h
    have heβ := chain_le h4
    obtain ⟨k1, k2⟩ := segment_arc hF hs h1 (heβ.trans hβ) h2 h3
    constructor
    · intro t t1 t2
      rcases le_or_gt t e with hte | hte
      · obtain ⟨x, x0, x1, x2⟩ := k1 t t1 hte
        exact ⟨g, List.mem_cons_self, x, x0, x1, x2⟩
      · cases l with
        | nil =>
          have : e = β := h4
          linarith
        | cons g' l' =>
          obtain ⟨g2, m, x, hx⟩ := (ih (hs.trans h1) (by simp) h4).1 t hte.le t2
          exact ⟨g2, List.mem_cons_of_mem _ m, x, hx⟩
    · intro g2 m x x0 x1
      rcases List.mem_cons.mp m with rfl | m
      · obtain ⟨t, t1, t2, t3⟩ := k2 x x0 x1
        exact ⟨t, t1, t2.trans heβ, t3⟩
      · obtain ⟨t, t1, t2, t3⟩ := (ih (hs.trans h1) (List.ne_nil_of_mem m) h4).2 g2 m x x0 x1
        exact ⟨t, h1.trans t1, t2, t3⟩

theorem chain_joined {A T : Vec ℝ} {β : ℝ} {l : List (FaceSegment ℝ)} {s : ℝ} (h : Chain A T β s l) :
    l.IsChain (fun g k => faceUVtoXYZ g.face g.b.x g.b.y = faceUVtoXYZ k.face k.a.x k.a.y) := by
  induction l generalizing s with
  | nil => exact List.IsChain.nil
  | cons g l ih =>
    obtain ⟨e, h1, h2, h3, h4⟩ := h
    cases l with
    | nil => exact List.IsChain.singleton g
    | cons k l =>
      refine List.IsChain.cons_cons ?_ (ih h4)
      obtain ⟨e', -, k2, -⟩ := h4
      exact at_unique h3 k2

/-- Together the segments are exactly the edge: every point of the edge is on a segment, and every point of a segment is on the edge. -/
theorem c113_cover {sqrt : ℝ → ℝ} (hs : IsSqrt sqrt) {neg : ℝ → Bool} (hneg : SignBit neg) (sqrt2 : ℝ) {a b : Vec ℝ}
    (ha : UnitV a) (hb : UnitV b) {segs : List (FaceSegment ℝ)} (h : faceSegments _root_.id sqrt neg sqrt2 a b = some segs) :
    ∃ T, Frame a T ∧ b = arcPt a T (ang a b) ∧
      (∀ t, 0 ≤ t → t ≤ ang a b → ∃ g ∈ segs, ∃ x, 0 ≤ x ∧ x ≤ 1 ∧ At a T g.face (between g.a g.b x) t) ∧
      (∀ g ∈ segs, ∀ x, 0 ≤ x → x ≤ 1 → ∃ t, 0 ≤ t ∧ t ≤ ang a b ∧ At a T g.face (between g.a g.b x) t) := by
  obtain ⟨T, segs', h1, h2, h3, h4, -, -, h5, -⟩ := c113_segments hs hneg sqrt2 ha hb
  obtain rfl := Option.some.inj (h.symm.trans h3)
  refine ⟨T, h1, h2, chain_cover h1 (ang_le_pi a b) le_rfl ?_ h4⟩
  rintro rfl
  cases h5

/-- Each segment starts at the point of the cube where the previous one ends. -/
theorem c113_joined {sqrt : ℝ → ℝ} (hs : IsSqrt sqrt) {neg : ℝ → Bool} (hneg : SignBit neg) (sqrt2 : ℝ) {a b : Vec ℝ}
    (ha : UnitV a) (hb : UnitV b) {segs : List (FaceSegment ℝ)} (h : faceSegments _root_.id sqrt neg sqrt2 a b = some segs) :
    segs.IsChain (fun g k => faceUVtoXYZ g.face g.b.x g.b.y = faceUVtoXYZ k.face k.a.x k.a.y) := by
  obtain ⟨T, segs', -, -, h3, h4, -⟩ := c113_segments hs hneg sqrt2 ha hb
  obtain rfl := Option.some.inj (h.symm.trans h3)
  exact chain_joined h4

/-- From the middle of one face to the middle of the next one there are at least two segments. -/
example : ∃ segs, faceSegments _root_.id Real.sqrt (fun x => decide (x < 0)) (Real.sqrt 2) ⟨1, 0, 0⟩ ⟨0, 1, 0⟩ = some segs ∧ 2 ≤ segs.length := by
  have hneg : SignBit (fun x : ℝ => decide (x < 0)) := by
    intro x _
    rfl
  obtain ⟨T, segs, -, -, h, -, -, -, h1, h2⟩ := c113_segments isSqrt_real hneg (Real.sqrt 2) (a := ⟨1, 0, 0⟩) (b := ⟨0, 1, 0⟩)
    (by unfold UnitV dot; norm_num) (by unfold UnitV dot; norm_num)
  refine ⟨segs, h, ?_⟩
  have f1 : vecFace (⟨1, 0, 0⟩ : Vec ℝ) = 0 := by unfold vecFace; norm_num
  have f2 : vecFace (⟨0, 1, 0⟩ : Vec ℝ) = 1 := by unfold vecFace; norm_num
  rw [f1] at h1
  rw [f2] at h2
  match segs, h1, h2 with
  | [], h1, _ => cases h1
  | [x], h1, h2 =>
    simp only [List.map_cons, List.map_nil, List.head?_cons, List.getLast?_singleton, Option.some.injEq] at h1 h2
    rw [h1] at h2
    cases h2
  | _ :: _ :: _, _, _ => simp

end Verif
