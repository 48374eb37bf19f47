import Verif.Model.EdgeUtil
import Verif.Properties.CapExact

/-!
# Distances from a point to an edge: C82

`project`, `update_min_distance`, `distance_from_segment` and `update_max_distance` in exact (real) arithmetic. An edge is the shorter
arc between its ends, described by `OnEdge` without reference to the code.
-/

namespace Verif
open Spec EdgeUtil

namespace Spec

/-- The points of the edge from `a` to `b`: the unit vectors that are combinations of the ends with non-negative factors. -/
def OnEdge (a b p : Vec ℝ) : Prop := UnitV p ∧ ∃ s t : ℝ, 0 ≤ s ∧ 0 ≤ t ∧ p = lin s a t b

/-- The squared chord from `x` to `p`. -/
noncomputable def dist2 (x p : Vec ℝ) : ℝ := dot (diff x p) (diff x p)

end Spec

theorem dist2_unit {x p : Vec ℝ} (hx : UnitV x) (hp : UnitV p) : dist2 x p = 2 - 2 * dot x p := by
  have e : dist2 x p = dot x x - 2 * dot x p + dot p p := by simp only [dist2, dot, diff]; ring
  rw [e, hx, hp]; ring

theorem onEdge_left {a b : Vec ℝ} (ha : UnitV a) : OnEdge a b a := ⟨ha, 1, 0, zero_le_one, le_rfl, by simp [lin]⟩
theorem onEdge_right {a b : Vec ℝ} (hb : UnitV b) : OnEdge a b b := ⟨hb, 0, 1, le_rfl, zero_le_one, by simp [lin]⟩

theorem lin_unit {a b : Vec ℝ} (ha : UnitV a) (hb : UnitV b) (s t : ℝ) :
    dot (lin s a t b) (lin s a t b) = s ^ 2 + t ^ 2 + 2 * s * t * dot a b := by
  have e : dot (lin s a t b) (lin s a t b) = s ^ 2 * dot a a + t ^ 2 * dot b b + 2 * s * t * dot a b := by simp only [dot, lin]; ring
  rw [e, ha, hb]; ring

/-- The scalar product along an edge, when the foot of the perpendicular is beyond an end. -/
theorem vertex_case {k α β s t : ℝ} (k1 : -1 ≤ k) (k2 : k ≤ 1) (hs : 0 ≤ s) (ht : 0 ≤ t) (hu : s ^ 2 + t ^ 2 + 2 * s * t * k = 1)
    (pa : s + t * k ≤ 1) (pb : s * k + t ≤ 1) (h : β ≤ k * α) : s * α + t * β ≤ max α β := by
  have st : 1 ≤ s + t := by nlinarith [mul_nonneg hs ht]
  rcases le_or_gt 0 α with h0 | h0
  · refine le_max_of_le_left ?_
    have h1 : t * β ≤ t * (k * α) := mul_le_mul_of_nonneg_left h ht
    have h2 : α * (s + t * k) ≤ α * 1 := mul_le_mul_of_nonneg_left pa h0
    linarith
  · rcases le_or_gt β 0 with h1 | h1
    · have h2 : max α β ≤ 0 := max_le h0.le h1
      have h3 := mul_le_mul_of_nonneg_left (le_max_left α β) hs
      have h4 := mul_le_mul_of_nonneg_left (le_max_right α β) ht
      nlinarith
    · refine le_max_of_le_right ?_
      have kn : k < 0 := by
        by_contra hc
        have := mul_nonneg (not_lt.1 hc) (neg_nonneg.2 h0.le)
        linarith
      have h5 : α - k * β ≤ 0 := by
        have h6 : k * (k * α) ≤ k * β := mul_le_mul_of_nonpos_left h kn.le
        have h7 : α * (1 - k * k) ≤ 0 := mul_nonpos_of_nonpos_of_nonneg h0.le (by nlinarith)
        linarith
      have h8 : t * β ≤ (1 - s * k) * β := mul_le_mul_of_nonneg_right (by linarith) h1.le
      have h9 := mul_nonpos_of_nonneg_of_nonpos hs h5
      linarith

theorem lin_dots {a b : Vec ℝ} (ha : UnitV a) (hb : UnitV b) (s t : ℝ) (x : Vec ℝ) :
    dot (lin s a t b) a = s + t * dot a b ∧ dot (lin s a t b) b = s * dot a b + t ∧ dot x (lin s a t b) = s * dot x a + t * dot x b := by
  refine ⟨?_, ?_, ?_⟩
  · rw [dot_lin, ha, dot_comm b a]; ring
  · rw [dot_lin, hb]; ring
  · rw [dot_comm, dot_lin, dot_comm a x, dot_comm b x]

/-- Beyond an end, no point of the edge is nearer than both ends. -/
theorem vertex_far {a b x p : Vec ℝ} (ha : UnitV a) (hb : UnitV b) (hp : OnEdge a b p)
    (h : dot x b ≤ dot a b * dot x a ∨ dot x a ≤ dot a b * dot x b) : dot x p ≤ max (dot x a) (dot x b) := by
  obtain ⟨hu, s, t, hs, ht, e⟩ := hp
  obtain ⟨k1, k2⟩ := dot_le_one ha hb
  obtain ⟨d1, d2, d3⟩ := lin_dots ha hb s t x
  have pa := (dot_le_one hu ha).2
  have pb := (dot_le_one hu hb).2
  unfold UnitV at hu
  rw [e] at hu pa pb ⊢
  rw [lin_unit ha hb] at hu
  rw [d1] at pa
  rw [d2] at pb
  rw [d3]
  rcases h with h | h
  · exact vertex_case k1 k2 hs ht hu pa pb h
  · rw [max_comm, add_comm]
    exact vertex_case k1 k2 ht hs (by linarith) (by linarith) (by linarith) h

/-- The perpendicular foot of `x` on the plane of `a` and `b`, times `1 - (a·b)²`. -/
noncomputable def foot (a b x : Vec ℝ) : Vec ℝ := lin (dot x a - dot a b * dot x b) a (dot x b - dot a b * dot x a) b

/-- The square of the length of the foot is `(1 - k²)(1 - k²) - (1-k²)(x·(a×b))²`: the theorem of Pythagoras. -/
theorem foot_len {a b x : Vec ℝ} (ha : UnitV a) (hb : UnitV b) (hx : UnitV x) :
    dot (foot a b x) (foot a b x) = (1 - dot a b ^ 2) * ((1 - dot a b ^ 2) - dot x (cross a b) ^ 2) := by
  have h1 : dot (cross a b) (cross a b) = 1 - dot a b ^ 2 := by
    have : dot (cross a b) (cross a b) = dot a a * dot b b - dot a b ^ 2 := by simp only [dot, cross]; ring
    rw [this, ha, hb]; ring
  -- the Gram determinant of a, b, x
  have h2 : dot x (cross a b) ^ 2 = dot a a * dot b b * dot x x + 2 * dot a b * dot x a * dot x b - dot a a * dot x b ^ 2 - dot b b * dot x a ^ 2
      - dot x x * dot a b ^ 2 := by simp only [dot, cross]; ring
  rw [ha, hb, hx] at h2
  unfold foot
  rw [lin_unit ha hb, h2]
  ring

theorem foot_dot {a b x : Vec ℝ} (ha : UnitV a) (hb : UnitV b) (s t : ℝ) :
    dot (foot a b x) (lin s a t b) = (1 - dot a b ^ 2) * dot x (lin s a t b) := by
  have e : dot (foot a b x) (lin s a t b) = (dot x a - dot a b * dot x b) * (s * dot a a + t * dot a b) +
      (dot x b - dot a b * dot x a) * (s * dot a b + t * dot b b) := by simp only [foot, dot, lin]; ring
  rw [e, (lin_dots ha hb s t x).2.2, ha, hb]; ring

theorem cauchy (p q : Vec ℝ) : dot p q ^ 2 ≤ dot p p * dot q q := by
  have : dot p p * dot q q - dot p q ^ 2 = dot (cross p q) (cross p q) := by simp only [dot, cross]; ring
  have := dot_self_nonneg (cross p q)
  linarith

/-- In the interior case the nearest point is in the direction of the foot. -/
theorem interior_near {a b x : Vec ℝ} (ha : UnitV a) (hb : UnitV b) (hx : UnitV x) (hab : -1 < dot a b)
    (h1 : dot a b * dot x a < dot x b) (h2 : dot a b * dot x b < dot x a) :
    0 < 1 - dot a b ^ 2 ∧ 0 < 1 - dot x (cross a b) ^ 2 / (1 - dot a b ^ 2) ∧
    (∀ p, OnEdge a b p → dot x p ≤ Real.sqrt (1 - dot x (cross a b) ^ 2 / (1 - dot a b ^ 2))) ∧
    ∃ r, OnEdge a b r ∧ dot x r = Real.sqrt (1 - dot x (cross a b) ^ 2 / (1 - dot a b ^ 2)) ∧ ∃ m, 0 < m ∧ r = smul m (foot a b x) := by
  obtain ⟨k1, k2⟩ := dot_le_one ha hb
  have w : 0 < 1 - dot a b ^ 2 := by
    have hle : 0 ≤ 1 - dot a b ^ 2 := by nlinarith
    rcases hle.lt_or_eq with h | h
    · exact h
    · exfalso
      have : (1 - dot a b) * (1 + dot a b) = 0 := by linarith
      have hk : dot a b = 1 := by
        rcases mul_eq_zero.1 this with h | h <;> linarith
      rw [hk] at h1 h2
      linarith
  have hl := foot_len ha hb hx
  have hpos : 0 < dot (foot a b x) (foot a b x) := by
    unfold foot
    rw [lin_unit ha hb]
    have s0 : 0 < dot x a - dot a b * dot x b := by linarith
    have t0 : 0 < dot x b - dot a b * dot x a := by linarith
    generalize dot x a - dot a b * dot x b = s at *
    generalize dot x b - dot a b * dot x a = t at *
    generalize dot a b = k at *
    have e : s ^ 2 + t ^ 2 + 2 * s * t * k = (s - t) ^ 2 + 2 * (s * t) * (1 + k) := by ring
    rw [e]
    have : 0 < 2 * (s * t) * (1 + k) := by
      have : 0 < 1 + k := by linarith
      positivity
    nlinarith [sq_nonneg (s - t)]
  generalize hw : 1 - dot a b ^ 2 = W at *
  have hq : 0 < 1 - dot x (cross a b) ^ 2 / W := by
    have h3 := pos_of_mul_pos_right (hl ▸ hpos) w.le
    have : 1 - dot x (cross a b) ^ 2 / W = (W - dot x (cross a b) ^ 2) / W := by field_simp
    rw [this]; positivity
  have hlen : dot (foot a b x) (foot a b x) = W ^ 2 * (1 - dot x (cross a b) ^ 2 / W) := by rw [hl]; field_simp
  generalize hQ : 1 - dot x (cross a b) ^ 2 / W = Q at *
  have sq := Real.sq_sqrt hq.le
  have sp := Real.sqrt_pos.2 hq
  refine ⟨w, hq, ?_, ?_⟩
  · rintro p ⟨hu, s, t, hs, ht, e⟩
    have hd : dot (foot a b x) p = W * dot x p := by rw [e, foot_dot ha hb, hw]
    have hc := cauchy (foot a b x) p
    rw [hd, hu, hlen, mul_one, mul_pow] at hc
    have h4 : dot x p ^ 2 ≤ Q := le_of_mul_le_mul_left hc (by positivity)
    exact (le_abs_self _).trans (Real.abs_le_sqrt h4)
  · have m0 : 0 < 1 / (W * Real.sqrt Q) := by positivity
    refine ⟨smul (1 / (W * Real.sqrt Q)) (foot a b x), ⟨?_, ?_⟩, ?_, _, m0, rfl⟩
    · unfold UnitV
      have : dot (smul (1 / (W * Real.sqrt Q)) (foot a b x)) (smul (1 / (W * Real.sqrt Q)) (foot a b x)) =
          (1 / (W * Real.sqrt Q)) ^ 2 * dot (foot a b x) (foot a b x) := by simp only [dot, smul]; ring
      rw [this, hlen, div_pow, mul_pow, sq]
      field_simp
    · refine ⟨1 / (W * Real.sqrt Q) * (dot x a - dot a b * dot x b), 1 / (W * Real.sqrt Q) * (dot x b - dot a b * dot x a),
        mul_nonneg m0.le (by linarith), mul_nonneg m0.le (by linarith), ?_⟩
      simp only [smul, foot, lin, Vec.mk.injEq]
      refine ⟨?_, ?_, ?_⟩ <;> ring
    · have hd := foot_dot (x := x) ha hb (dot x a - dot a b * dot x b) (dot x b - dot a b * dot x a)
      rw [hw] at hd
      change dot (foot a b x) (foot a b x) = W * dot x (foot a b x) at hd
      rw [hlen] at hd
      have hd' : dot x (foot a b x) = W * Q := by
        have : W * dot x (foot a b x) = W * (W * Q) := by rw [← hd]; ring
        exact mul_left_cancel₀ w.ne' this
      have : dot x (smul (1 / (W * Real.sqrt Q)) (foot a b x)) = 1 / (W * Real.sqrt Q) * dot x (foot a b x) := by simp only [dot, smul]; ring
      rw [this, hd', div_mul_eq_mul_div, one_mul, mul_div_mul_left _ _ w.ne']
      exact Real.div_sqrt

/-- The squared chord from `x` to the nearest point of the great circle, in the interior case. -/
noncomputable def innerDist (a b x : Vec ℝ) : ℝ := 2 - 2 * Real.sqrt (1 - dot x (cross a b) ^ 2 / (1 - dot a b ^ 2))

theorem not_anti {a b : Vec ℝ} (ha : UnitV a) (hb : UnitV b) (h : b ≠ smul (-1) a) : -1 < dot a b := by
  rcases (dot_le_one ha hb).1.lt_or_eq with h1 | h1
  · exact h1
  · exfalso
    apply h
    have e : dot (lin 1 a 1 b) (lin 1 a 1 b) = 0 := by rw [lin_unit ha hb, ← h1]; norm_num
    simp only [dot, lin] at e
    have hx : (1 * a.x + 1 * b.x) = 0 := by nlinarith [mul_self_nonneg (1 * a.x + 1 * b.x), mul_self_nonneg (1 * a.y + 1 * b.y), mul_self_nonneg (1 * a.z + 1 * b.z)]
    have hy : (1 * a.y + 1 * b.y) = 0 := by nlinarith [mul_self_nonneg (1 * a.x + 1 * b.x), mul_self_nonneg (1 * a.y + 1 * b.y), mul_self_nonneg (1 * a.z + 1 * b.z)]
    have hz : (1 * a.z + 1 * b.z) = 0 := by nlinarith [mul_self_nonneg (1 * a.x + 1 * b.x), mul_self_nonneg (1 * a.y + 1 * b.y), mul_self_nonneg (1 * a.z + 1 * b.z)]
    obtain ⟨b1, b2, b3⟩ := b
    simp only [smul, Vec.mk.injEq] at *
    refine ⟨?_, ?_, ?_⟩ <;> linarith

theorem unit_ne {a : Vec ℝ} (ha : UnitV a) : ¬ IsZero a := by
  rintro ⟨h1, h2, h3⟩
  unfold UnitV dot at ha
  rw [h1, h2, h3] at ha
  norm_num at ha

theorem maxError_nonneg {p q r : ℝ} (hp : 0 ≤ p) (hq : 0 ≤ q) (hr : 0 ≤ r) : 0 ≤ maxError _root_.id p q r := by
  unfold maxError Predicates.dblEpsilon
  simp only [_root_.id]
  positivity

/-- `interior_dist` in exact arithmetic. -/
theorem interiorDist_eq {a b x : Vec ℝ} (ha : UnitV a) (hb : UnitV b) (hx : UnitV x) (hab : b ≠ smul (-1) a) (m : ℝ) (au : Bool) :
    interiorDist _root_.id Real.sqrt x a b m au =
      if (dot a b * dot x a < dot x b ∧ dot a b * dot x b < dot x a) ∧ ¬ (au = false ∧ m ≤ innerDist a b x) then (innerDist a b x, true) else (m, false) := by
  have hk := not_anti ha hb hab
  have k2 := (dot_le_one ha hb).2
  have e1 : Vec.norm2 _root_.id (Vec.sub _root_.id x a) = 2 - 2 * dot x a := dist2_unit hx ha
  have e2 : Vec.norm2 _root_.id (Vec.sub _root_.id x b) = 2 - 2 * dot x b := dist2_unit hx hb
  have e3 : Vec.norm2 _root_.id (Vec.sub _root_.id a b) = 2 - 2 * dot a b := dist2_unit ha hb
  obtain ⟨_, _, _, c1, c2⟩ := c74_pointCross isSqrt_real (unit_ne ha) (p := a) (q := b) (by rw [show dot a a = 1 from ha, show dot b b = 1 from hb])
  by_cases hz : IsZero (cross a b)
  · have hba : b = a := by
      rcases (c2 hz).1 with h | h
      · exact h
      · exact absurd h hab
    rw [hba, if_neg (by
      rintro ⟨⟨h1, h2⟩, _⟩
      rw [show dot a a = 1 from ha] at h1
      linarith)]
    unfold interiorDist
    dsimp only
    split_ifs with h1 h2 h3 <;> first | rfl | (exfalso; rw [not_or, not_le, not_le] at h3; linarith [h3.1, h3.2])
  · have ec := c1 hz
    have w : dot (cross a b) (cross a b) = 1 - dot a b ^ 2 := by
      have : dot (cross a b) (cross a b) = dot a a * dot b b - dot a b ^ 2 := by simp only [dot, cross]; ring
      rw [this, ha, hb]; ring
    have w0 : 0 < 1 - dot a b ^ 2 := by
      rw [← w]
      rcases (dot_self_nonneg (cross a b)).lt_or_eq with h | h
      · exact h
      · exfalso
        apply hz
        unfold dot at h
        have := mul_self_nonneg (cross a b).x
        have := mul_self_nonneg (cross a b).y
        have := mul_self_nonneg (cross a b).z
        exact ⟨mul_self_eq_zero.1 (by linarith), mul_self_eq_zero.1 (by linarith), mul_self_eq_zero.1 (by linarith)⟩
    have f1 : Vec.norm2 _root_.id (smul 2 (cross a b)) = 4 * (1 - dot a b ^ 2) := by
      rw [← w]; simp only [Vec.norm2, Vec.dot, dot, smul, _root_.id]; ring
    have f2 : Vec.dot _root_.id x (smul 2 (cross a b)) = 2 * dot x (cross a b) := by
      simp only [Vec.dot, dot, smul, _root_.id]; ring
    have f3 : Vec.dot _root_.id (Vec.sub _root_.id a x) (Vec.cross _root_.id (smul 2 (cross a b)) x) = -(2 * (dot x b - dot a b * dot x a)) := by
      have : Vec.dot _root_.id (Vec.sub _root_.id a x) (Vec.cross _root_.id (smul 2 (cross a b)) x) = -(2 * (dot a a * dot x b - dot a b * dot x a)) := by
        simp only [Vec.dot, dot, smul, _root_.id, Vec.sub, Vec.cross, cross]; ring
      rw [this, ha, one_mul]
    have f4 : Vec.dot _root_.id (Vec.sub _root_.id b x) (Vec.cross _root_.id (smul 2 (cross a b)) x) = 2 * (dot x a - dot a b * dot x b) := by
      have : Vec.dot _root_.id (Vec.sub _root_.id b x) (Vec.cross _root_.id (smul 2 (cross a b)) x) = 2 * (dot b b * dot x a - dot a b * dot x b) := by
        simp only [Vec.dot, dot, smul, _root_.id, Vec.sub, Vec.cross, cross]; ring
      rw [this, hb, one_mul]
    have f5 : Vec.norm2 _root_.id (Vec.cross _root_.id (smul 2 (cross a b)) x) = 4 * ((1 - dot a b ^ 2) - dot x (cross a b) ^ 2) := by
      have : Vec.norm2 _root_.id (Vec.cross _root_.id (smul 2 (cross a b)) x) = 4 * (dot (cross a b) (cross a b) * dot x x - dot x (cross a b) ^ 2) := by
        simp only [Vec.norm2, Vec.dot, dot, smul, _root_.id, Vec.cross]; ring
      rw [this, hx, w, mul_one]
    have hQ : 4 * ((1 - dot a b ^ 2) - dot x (cross a b) ^ 2) / (4 * (1 - dot a b ^ 2)) = 1 - dot x (cross a b) ^ 2 / (1 - dot a b ^ 2) := by
      field_simp
    unfold interiorDist
    dsimp only
    rw [ec, e1, e2, e3, f1, f2, f3, f4, f5]
    simp only [_root_.id, Bool.and_eq_true, decide_eq_true_eq, hQ]
    by_cases hin : dot a b * dot x a < dot x b ∧ dot a b * dot x b < dot x a
    · obtain ⟨_, q0, _, _⟩ := interior_near ha hb hx hk hin.1 hin.2
      have me := maxError_nonneg (p := 2 - 2 * dot x a) (q := 2 - 2 * dot x b) (r := 2 - 2 * dot a b) (by linarith [(dot_le_one hx ha).2])
        (by linarith [(dot_le_one hx hb).2]) (by linarith)
      have hD : 2 * dot x (cross a b) * (2 * dot x (cross a b)) / (4 * (1 - dot a b ^ 2)) +
          (1 - Real.sqrt (1 - dot x (cross a b) ^ 2 / (1 - dot a b ^ 2))) * (1 - Real.sqrt (1 - dot x (cross a b) ^ 2 / (1 - dot a b ^ 2))) = innerDist a b x := by
        unfold innerDist
        have g1 : 2 * dot x (cross a b) * (2 * dot x (cross a b)) / (4 * (1 - dot a b ^ 2)) = dot x (cross a b) ^ 2 / (1 - dot a b ^ 2) := by
          rw [show 2 * dot x (cross a b) * (2 * dot x (cross a b)) = 4 * dot x (cross a b) ^ 2 by ring, mul_div_mul_left _ _ (by norm_num)]
        rw [g1]
        generalize dot x (cross a b) ^ 2 / (1 - dot a b ^ 2) = y at *
        have := Real.mul_self_sqrt q0.le
        linarith
      simp only [hD]
      have planar : ¬ |2 - 2 * dot x a - (2 - 2 * dot x b)| ≥ 2 - 2 * dot a b + maxError _root_.id (2 - 2 * dot x a) (2 - 2 * dot x b) (2 - 2 * dot a b) := by
        rw [ge_iff_le, not_le]
        have hl := foot_len ha hb hx
        unfold foot at hl
        rw [lin_unit ha hb] at hl
        have hg := sq_nonneg (dot x (cross a b))
        generalize dot x (cross a b) ^ 2 = g at *
        generalize maxError _root_.id (2 - 2 * dot x a) (2 - 2 * dot x b) (2 - 2 * dot a b) = e at *
        have hin1 := sub_pos.2 hin.1
        have hin2 := sub_pos.2 hin.2
        have hk' : 0 < 1 + dot a b := by linarith
        have k3 : 0 < 1 - dot a b := by
          have : 1 - dot a b ^ 2 = (1 - dot a b) * (1 + dot a b) := by ring
          rw [this] at w0
          exact pos_of_mul_pos_left w0 hk'.le
        have key : (dot x a - dot x b) ^ 2 * (1 + dot a b) ^ 2 < (1 - dot a b) ^ 2 * (1 + dot a b) ^ 2 := by
          have m1 := mul_pos (mul_pos hin1 hin2) hk'
          have m2 := mul_nonneg hg w0.le
          nlinarith
        have key2 : (dot x a - dot x b) ^ 2 < (1 - dot a b) ^ 2 := lt_of_mul_lt_mul_right key (by positivity)
        have := abs_lt_of_sq_lt_sq key2 k3.le
        have e5 : 2 - 2 * dot x a - (2 - 2 * dot x b) = -(2 * (dot x a - dot x b)) := by ring
        rw [e5, abs_neg, abs_mul, abs_two]
        linarith
      rw [if_neg planar]
      have hfar : 2 * dot x (cross a b) * (2 * dot x (cross a b)) > 4 * (1 - dot a b ^ 2) * m → m ≤ innerDist a b x := by
        intro h
        rw [← hD]
        have : m ≤ 2 * dot x (cross a b) * (2 * dot x (cross a b)) / (4 * (1 - dot a b ^ 2)) := by
          rw [le_div_iff₀ (by positivity)]; linarith
        exact this.trans (le_add_of_nonneg_right (mul_self_nonneg _))
      have hno : ¬ (-(2 * (dot x b - dot a b * dot x a)) ≥ 0 ∨ 2 * (dot x a - dot a b * dot x b) ≤ 0) := by
        rw [not_or, ge_iff_le, not_le, not_le]
        constructor <;> linarith [hin.1, hin.2]
      rw [if_neg hno]
      cases au
      · by_cases h1 : m ≤ innerDist a b x
        · rw [if_neg (show ¬ ((dot a b * dot x a < dot x b ∧ dot a b * dot x b < dot x a) ∧ ¬ (false = false ∧ m ≤ innerDist a b x)) from fun h => h.2 ⟨rfl, h1⟩)]
          simp only [Bool.not_false, true_and, ge_iff_le, h1, if_true]
          split_ifs <;> rfl
        · rw [if_neg (show ¬ ((!false) = true ∧ 2 * dot x (cross a b) * (2 * dot x (cross a b)) > 4 * (1 - dot a b ^ 2) * m) from fun h => h1 (hfar h.2))]
          rw [if_pos (show ((dot a b * dot x a < dot x b ∧ dot a b * dot x b < dot x a) ∧ ¬ (false = false ∧ m ≤ innerDist a b x)) from ⟨hin, fun h => h1 h.2⟩)]
          rw [if_neg (fun h => h1 h.2)]
      · rw [if_pos (show ((dot a b * dot x a < dot x b ∧ dot a b * dot x b < dot x a) ∧ ¬ (true = false ∧ m ≤ innerDist a b x)) from ⟨hin, fun h => by cases h.1⟩)]
        simp
    · rw [if_neg (show ¬ ((dot a b * dot x a < dot x b ∧ dot a b * dot x b < dot x a) ∧ ¬ (au = false ∧ m ≤ innerDist a b x)) from fun h => hin h.1)]
      have hno : (-(2 * (dot x b - dot a b * dot x a)) ≥ 0 ∨ 2 * (dot x a - dot a b * dot x b) ≤ 0) := by
        by_contra hc
        rw [not_or, ge_iff_le, not_le, not_le] at hc
        exact hin ⟨by linarith [hc.1], by linarith [hc.2]⟩
      rw [if_pos hno]
      split_ifs <;> rfl

/-! ## The least distance -/

/-- The least distance, by cases. -/
theorem least_interior {a b x : Vec ℝ} (ha : UnitV a) (hb : UnitV b) (hx : UnitV x) (hab : b ≠ smul (-1) a)
    (h : dot a b * dot x a < dot x b ∧ dot a b * dot x b < dot x a) :
    IsLeast {d | ∃ p, OnEdge a b p ∧ d = dist2 x p} (innerDist a b x) := by
  obtain ⟨_, _, h1, r, h2, h3, _⟩ := interior_near ha hb hx (not_anti ha hb hab) h.1 h.2
  constructor
  · exact ⟨r, h2, by rw [dist2_unit hx h2.1, h3]; rfl⟩
  · rintro d ⟨p, hp, rfl⟩
    rw [dist2_unit hx hp.1]
    have := h1 p hp
    unfold innerDist
    linarith

theorem least_vertex {a b x : Vec ℝ} (ha : UnitV a) (hb : UnitV b) (hx : UnitV x)
    (h : ¬ (dot a b * dot x a < dot x b ∧ dot a b * dot x b < dot x a)) :
    IsLeast {d | ∃ p, OnEdge a b p ∧ d = dist2 x p} (min (dist2 x a) (dist2 x b)) := by
  constructor
  · rcases min_choice (dist2 x a) (dist2 x b) with e | e
    · exact ⟨a, onEdge_left ha, e⟩
    · exact ⟨b, onEdge_right hb, e⟩
  · rintro d ⟨p, hp, rfl⟩
    have h1 := vertex_far (x := x) ha hb hp (by
      by_cases h1 : dot a b * dot x a < dot x b
      · exact Or.inr (not_lt.1 fun h2 => h ⟨h1, h2⟩)
      · exact Or.inl (not_lt.1 h1))
    rw [dist2_unit hx ha, dist2_unit hx hb, dist2_unit hx hp.1]
    rcases max_choice (dot x a) (dot x b) with e | e <;> rw [e] at h1
    · exact (min_le_left _ _).trans (by linarith)
    · exact (min_le_right _ _).trans (by linarith)

/-- **C82.** In exact arithmetic `update_min_distance` compares the bound with the least distance from the point to a point of the edge, and
returns this least distance when it is smaller than the bound or when asked to update always. -/
theorem c82_updateMin {a b x : Vec ℝ} (ha : UnitV a) (hb : UnitV b) (hx : UnitV x) (hab : b ≠ smul (-1) a) (m : ℝ) (au : Bool) :
    ∃ D, IsLeast {d | ∃ p, OnEdge a b p ∧ d = dist2 x p} D ∧
      updateMinDistance _root_.id Real.sqrt x a b m au = if au = false ∧ m ≤ D then (m, false) else (D, true) := by
  unfold updateMinDistance
  rw [interiorDist_eq ha hb hx hab]
  by_cases h : dot a b * dot x a < dot x b ∧ dot a b * dot x b < dot x a
  · have hl := least_interior ha hb hx hab h
    refine ⟨_, hl, ?_⟩
    by_cases h1 : au = false ∧ m ≤ innerDist a b x
    · rw [if_neg (fun h' => h'.2 h1), if_pos h1]
      have h2 : m ≤ min (dist2 x a) (dist2 x b) :=
        le_min (h1.2.trans (hl.2 ⟨a, onEdge_left ha, rfl⟩)) (h1.2.trans (hl.2 ⟨b, onEdge_right hb, rfl⟩))
      dsimp only
      rw [if_neg (by simp)]
      exact if_pos (by rw [h1.1, Bool.not_false, Bool.true_and, decide_eq_true_eq]; exact h2)
    · rw [if_pos ⟨h, h1⟩, if_neg h1]
      rfl
  · refine ⟨_, least_vertex ha hb hx h, ?_⟩
    rw [if_neg (fun h' => h h'.1)]
    dsimp only
    rw [if_neg (by simp)]
    have e : min (Vec.norm2 _root_.id (Vec.sub _root_.id x a)) (Vec.norm2 _root_.id (Vec.sub _root_.id x b)) = min (dist2 x a) (dist2 x b) := rfl
    simp only [e]
    cases au <;> simp

/-- **C82.** In exact arithmetic `distance_from_segment` is the least angle between the point and a point of the edge. -/
theorem c82_distance {a b x : Vec ℝ} (ha : UnitV a) (hb : UnitV b) (hx : UnitV x) (hab : b ≠ smul (-1) a) :
    IsLeast {θ | ∃ p, OnEdge a b p ∧ θ = ang x p} (distanceFromSegment _root_.id Real.sqrt Real.arcsin x a b) := by
  obtain ⟨D, ⟨⟨p, hp, e⟩, h2⟩, h3⟩ := c82_updateMin ha hb hx hab 0 true
  unfold distanceFromSegment
  rw [h3, if_neg (fun h => by cases h.1)]
  have key : ∀ q, OnEdge a b q → dist2 x q = chordOf (ang x q) := fun q hq => dist2_ang hx hq.1
  have er : ChordAngle.toRad _root_.id Real.sqrt Real.arcsin D = ang x p := by
    rw [e, key p hp]
    have hr := chordOf_range (α := ang x p)
    obtain ⟨k1, k2, k3⟩ := chordOf_surj hr.1 hr.2
    have e2 : ChordAngle.toRad _root_.id Real.sqrt Real.arcsin (chordOf (ang x p)) = 2 * Real.arcsin (1 / 2 * Real.sqrt (chordOf (ang x p))) := rfl
    rw [e2]
    refine le_antisymm ?_ ?_
    · exact (chordOf_le k1 k2 (ang_nonneg _ _) (ang_le_pi _ _)).1 k3.le
    · exact (chordOf_le (ang_nonneg _ _) (ang_le_pi _ _) k1 k2).1 k3.ge
  rw [er]
  refine ⟨⟨p, hp, rfl⟩, ?_⟩
  rintro θ ⟨q, hq, rfl⟩
  have := h2 ⟨q, hq, rfl⟩
  rw [e, key p hp, key q hq] at this
  exact (chordOf_le (ang_nonneg _ _) (ang_le_pi _ _) (ang_nonneg _ _) (ang_le_pi _ _)).1 this

/-- **C82.** In exact arithmetic `project` is a point of the edge, and no point of the edge is nearer. -/
theorem c82_project {a b x : Vec ℝ} (ha : UnitV a) (hb : UnitV b) (hx : UnitV x) (hab : b ≠ smul (-1) a) :
    OnEdge a b (project _root_.id Real.sqrt x a b) ∧ ∀ p, OnEdge a b p → dist2 x (project _root_.id Real.sqrt x a b) ≤ dist2 x p := by
  obtain ⟨cz, ca, cb, c1, c2⟩ := c74_pointCross isSqrt_real (unit_ne ha) (p := a) (q := b) (by rw [show dot a a = 1 from ha, show dot b b = 1 from hb])
  set c := Vec.pointCross _root_.id Real.sqrt a b with hc
  have n0 : 0 < dot c c := by
    rcases (dot_self_nonneg c).lt_or_eq with h | h
    · exact h
    · exfalso
      apply cz
      unfold dot at h
      have := mul_self_nonneg c.x
      have := mul_self_nonneg c.y
      have := mul_self_nonneg c.z
      exact ⟨mul_self_eq_zero.1 (by linarith), mul_self_eq_zero.1 (by linarith), mul_self_eq_zero.1 (by linarith)⟩
  -- the end that is nearer
  have ends : ¬ (dot a b * dot x a < dot x b ∧ dot a b * dot x b < dot x a) →
      OnEdge a b (if Vec.norm2 _root_.id (Vec.sub _root_.id x a) ≤ Vec.norm2 _root_.id (Vec.sub _root_.id x b) then a else b) ∧
      ∀ p, OnEdge a b p → dist2 x (if Vec.norm2 _root_.id (Vec.sub _root_.id x a) ≤ Vec.norm2 _root_.id (Vec.sub _root_.id x b) then a else b) ≤ dist2 x p := by
    intro h
    have hl := least_vertex ha hb hx h
    have e : ∀ q, Vec.norm2 _root_.id (Vec.sub _root_.id x q) = dist2 x q := fun _ => rfl
    rw [e, e]
    split_ifs with h1
    · rw [min_eq_left h1] at hl
      exact ⟨onEdge_left ha, fun p hp => hl.2 ⟨p, hp, rfl⟩⟩
    · rw [min_eq_right (not_le.1 h1).le] at hl
      exact ⟨onEdge_right hb, fun p hp => hl.2 ⟨p, hp, rfl⟩⟩
  unfold project
  dsimp only
  rw [← hc]
  by_cases hz : IsZero (cross a b)
  · have hba : b = a := by
      rcases (c2 hz).1 with h | h
      · exact h
      · exact absurd h hab
    have hno : ¬ (dot a b * dot x a < dot x b ∧ dot a b * dot x b < dot x a) := by
      rintro ⟨h1, h2⟩
      rw [hba, show dot a a = 1 from ha] at h1
      linarith
    have hs : ∀ p, ¬ ((Predicates.sign _root_.id c a p && Predicates.sign _root_.id p b c) = true) := by
      intro p h
      rw [hba, Bool.and_eq_true, Predicates.sign, Predicates.sign, decide_eq_true_eq, decide_eq_true_eq] at h
      have : Vec.dot _root_.id (Vec.cross _root_.id p c) a = - Vec.dot _root_.id (Vec.cross _root_.id c p) a := by
        simp only [Vec.dot, Vec.cross, _root_.id]; ring
      linarith [h.1, h.2]
    rw [if_neg (hs _)]
    exact ends hno
  · have ec := c1 hz
    have w : dot c c = 4 * (1 - dot a b ^ 2) := by
      have : dot (smul 2 (cross a b)) (smul 2 (cross a b)) = 4 * (dot a a * dot b b - dot a b ^ 2) := by simp only [dot, cross, smul]; ring
      rw [ec, this, ha, hb]; ring
    have w0 : 0 < 1 - dot a b ^ 2 := by rw [w] at n0; linarith
    set p := Vec.sub _root_.id x (Vec.scale _root_.id c (_root_.id (Vec.dot _root_.id x c / Vec.norm2 _root_.id c))) with hp
    -- the point `p` is a positive multiple of the foot
    have hfoot : smul (1 - dot a b ^ 2) p = foot a b x := by
      have e1 : Vec.dot _root_.id x c / Vec.norm2 _root_.id c = dot x (cross a b) / (2 * (1 - dot a b ^ 2)) := by
        have : Vec.norm2 _root_.id c = 4 * (1 - dot a b ^ 2) := w
        rw [this, ec]
        have : Vec.dot _root_.id x (smul 2 (cross a b)) = 2 * dot x (cross a b) := by simp only [Vec.dot, dot, smul, _root_.id]; ring
        rw [this, show 4 * (1 - dot a b ^ 2) = 2 * (2 * (1 - dot a b ^ 2)) by ring, mul_div_mul_left _ _ (by norm_num)]
      have e2 : ∀ y, (1 - dot a b ^ 2) * (2 * y * (dot x (cross a b) / (2 * (1 - dot a b ^ 2)))) = y * dot x (cross a b) := by
        intro y; field_simp
      have e3 : 1 - dot a b ^ 2 = dot a a * dot b b - dot a b ^ 2 := by rw [ha, hb]; ring
      rw [hp, e1, ec]
      have g1 := e2 (cross a b).x
      have g2 := e2 (cross a b).y
      have g3 := e2 (cross a b).z
      have j : ∀ y, (1 - dot a b ^ 2) * y = (dot a a * dot b b - dot a b ^ 2) * y := fun y => by rw [← e3]
      have u1 : dot a a = 1 := ha
      have u2 : dot b b = 1 := hb
      have v : foot a b x = lin (dot b b * dot x a - dot a b * dot x b) a (dot a a * dot x b - dot a b * dot x a) b := by
        unfold foot; rw [u1, u2, one_mul, one_mul]
      rw [v]
      simp only [smul, Vec.sub, Vec.scale, _root_.id, lin, Vec.mk.injEq]
      rw [mul_sub (1 - dot a b ^ 2) x.x, mul_sub (1 - dot a b ^ 2) x.y, mul_sub (1 - dot a b ^ 2) x.z, g1, g2, g3, j, j, j]
      simp only [dot, cross]
      refine ⟨?_, ?_, ?_⟩ <;> ring
    have s1 : Predicates.sign _root_.id c a p = true ↔ dot a b * dot x a < dot x b := by
      rw [Predicates.sign, decide_eq_true_eq]
      have : (1 - dot a b ^ 2) * Vec.dot _root_.id (Vec.cross _root_.id p c) a = 2 * (1 - dot a b ^ 2) * (dot x b - dot a b * dot x a) := by
        have e1 : (1 - dot a b ^ 2) * Vec.dot _root_.id (Vec.cross _root_.id p c) a = Vec.dot _root_.id (Vec.cross _root_.id (smul (1 - dot a b ^ 2) p) c) a := by
          simp only [Vec.dot, Vec.cross, smul, _root_.id]; ring
        have e2 : Vec.dot _root_.id (Vec.cross _root_.id (foot a b x) (smul 2 (cross a b))) a =
            2 * (dot a a * dot b b - dot a b ^ 2) * (dot x b - dot a b * dot x a) := by
          simp only [foot, Vec.dot, Vec.cross, cross, dot, lin, smul, _root_.id]; ring
        rw [e1, hfoot, ec, e2, ha, hb]; ring
      constructor
      · intro h
        have h1 := mul_pos w0 h
        rw [this] at h1
        linarith [pos_of_mul_pos_right h1 (by linarith)]
      · intro h
        refine pos_of_mul_pos_right (a := 1 - dot a b ^ 2) ?_ w0.le
        rw [this]
        exact mul_pos (by linarith) (by linarith)
    have s2 : Predicates.sign _root_.id p b c = true ↔ dot a b * dot x b < dot x a := by
      rw [Predicates.sign, decide_eq_true_eq]
      have : (1 - dot a b ^ 2) * Vec.dot _root_.id (Vec.cross _root_.id c p) b = 2 * (1 - dot a b ^ 2) * (dot x a - dot a b * dot x b) := by
        have e1 : (1 - dot a b ^ 2) * Vec.dot _root_.id (Vec.cross _root_.id c p) b = Vec.dot _root_.id (Vec.cross _root_.id c (smul (1 - dot a b ^ 2) p)) b := by
          simp only [Vec.dot, Vec.cross, smul, _root_.id]; ring
        have e2 : Vec.dot _root_.id (Vec.cross _root_.id (smul 2 (cross a b)) (foot a b x)) b =
            2 * (dot a a * dot b b - dot a b ^ 2) * (dot x a - dot a b * dot x b) := by
          simp only [foot, Vec.dot, Vec.cross, cross, dot, lin, smul, _root_.id]; ring
        rw [e1, hfoot, ec, e2, ha, hb]; ring
      constructor
      · intro h
        have h1 := mul_pos w0 h
        rw [this] at h1
        linarith [pos_of_mul_pos_right h1 (by linarith)]
      · intro h
        refine pos_of_mul_pos_right (a := 1 - dot a b ^ 2) ?_ w0.le
        rw [this]
        exact mul_pos (by linarith) (by linarith)
    simp only [Bool.and_eq_true, s1, s2]
    by_cases hin : dot a b * dot x a < dot x b ∧ dot a b * dot x b < dot x a
    · rw [if_pos hin]
      obtain ⟨_, q0, h1, r, h2, h3, m, m0, hr⟩ := interior_near ha hb hx (not_anti ha hb hab) hin.1 hin.2
      have hpz : ¬ IsZero p := by
        rintro ⟨z1, z2, z3⟩
        have hu := h2.1
        rw [hr, ← hfoot] at hu
        unfold UnitV at hu
        simp only [dot, smul, z1, z2, z3] at hu
        norm_num at hu
      obtain ⟨t, t0, t1, t2⟩ := c74_normalize isSqrt_real hpz
      -- two positive multiples of the same vector of unit length
      have hrp : r = smul (m * (1 - dot a b ^ 2)) p := by
        rw [hr, ← hfoot]; simp only [smul, Vec.mk.injEq]; refine ⟨?_, ?_, ?_⟩ <;> ring
      have hsame : Vec.normalize _root_.id Real.sqrt p = r := by
        have hu := h2.1
        unfold UnitV at hu
        rw [hrp] at hu
        rw [t1] at t2
        have l1 : dot (smul t p) (smul t p) = t ^ 2 * dot p p := by simp only [dot, smul]; ring
        have l2 : dot (smul (m * (1 - dot a b ^ 2)) p) (smul (m * (1 - dot a b ^ 2)) p) = (m * (1 - dot a b ^ 2)) ^ 2 * dot p p := by simp only [dot, smul]; ring
        rw [l1] at t2
        rw [l2] at hu
        have pp : dot p p ≠ 0 := by intro h; rw [h] at t2; norm_num at t2
        have : t ^ 2 = (m * (1 - dot a b ^ 2)) ^ 2 := mul_right_cancel₀ pp (t2.trans hu.symm)
        have hm : 0 < m * (1 - dot a b ^ 2) := mul_pos m0 w0
        have : t = m * (1 - dot a b ^ 2) := by nlinarith
        rw [t1, hrp, this]
      rw [hsame]
      refine ⟨h2, fun q hq => ?_⟩
      rw [dist2_unit hx h2.1, dist2_unit hx hq.1, h3]
      linarith [h1 q hq]
    · rw [if_neg hin]
      exact ends hin

/-! ## The greatest distance -/

/-- **C82.** In exact arithmetic `update_max_distance` compares the bound with the greatest distance from the point to a point of the edge. -/
theorem c82_updateMax {a b x : Vec ℝ} (ha : UnitV a) (hb : UnitV b) (hx : UnitV x) (hab : b ≠ smul (-1) a) (m : ℝ) :
    ∃ D, IsGreatest {d | ∃ p, OnEdge a b p ∧ d = dist2 x p} D ∧
      updateMaxDistance _root_.id Real.sqrt x a b m = if m < D then (D, true) else (m, false) := by
  have hnx : UnitV (Vec.scale _root_.id x (-1)) := unit_neg hx
  have ca : Vec.chordAngle _root_.id x a = dist2 x a := by rw [chordAngle_ang hx ha, ← dist2_ang hx ha]; rfl
  have cb : Vec.chordAngle _root_.id x b = dist2 x b := by rw [chordAngle_ang hx hb, ← dist2_ang hx hb]; rfl
  unfold updateMaxDistance
  rw [ca, cb]
  dsimp only
  by_cases h : max (dist2 x a) (dist2 x b) > ChordAngle.right
  · rw [if_pos h]
    obtain ⟨E, ⟨⟨p, hp, e⟩, h2⟩, h3⟩ := c82_updateMin ha hb hnx hab (max (dist2 x a) (dist2 x b)) true
    rw [if_neg (fun h => by cases h.1)] at h3
    rw [h3]
    have neg : ∀ q, OnEdge a b q → dist2 (Vec.scale _root_.id x (-1)) q = 4 - dist2 x q := by
      intro q hq
      rw [dist2_unit hnx hq.1, dist2_unit hx hq.1]
      have : dot (Vec.scale _root_.id x (-1)) q = - dot x q := by simp only [dot, Vec.scale, _root_.id]; ring
      rw [this]; ring
    have es : ChordAngle.sub _root_.id Real.sqrt ChordAngle.straight E = dist2 x p := by
      have e1 : E = chordOf (ang (Vec.scale _root_.id x (-1)) p) := by rw [e]; exact dist2_ang hnx hp.1
      have e2 : (ChordAngle.straight : ℝ) = chordOf Real.pi := by rw [chordOf_pi]; rfl
      rw [e1, e2, c63_sub_exact Real.pi_pos.le le_rfl (ang_nonneg _ _) (ang_le_pi _ _), ang_neg]
      have : max (Real.pi - (Real.pi - ang x p)) 0 = ang x p := by
        rw [max_eq_left] <;> [ring; linarith [ang_nonneg x p]]
      rw [this]
      exact (dist2_ang hx hp.1).symm
    refine ⟨dist2 x p, ⟨⟨p, hp, rfl⟩, ?_⟩, by rw [es]⟩
    rintro d ⟨q, hq, rfl⟩
    have := h2 ⟨q, hq, rfl⟩
    rw [e, neg p hp, neg q hq] at this
    linarith
  · rw [if_neg h]
    refine ⟨max (dist2 x a) (dist2 x b), ⟨?_, ?_⟩, rfl⟩
    · rcases max_choice (dist2 x a) (dist2 x b) with e | e
      · exact ⟨a, onEdge_left ha, e⟩
      · exact ⟨b, onEdge_right hb, e⟩
    · rintro d ⟨q, ⟨hu, s, t, hs, ht, e⟩, rfl⟩
      have h2 : max (dist2 x a) (dist2 x b) ≤ 2 := not_lt.1 h
      have hA := (le_max_left _ _).trans h2
      have hB := (le_max_right _ _).trans h2
      rw [dist2_unit hx ha] at hA
      rw [dist2_unit hx hb] at hB
      have hu' := hu
      unfold UnitV at hu
      rw [e, lin_unit ha hb] at hu
      have k2 := (dot_le_one ha hb).2
      have st : 1 ≤ s + t := by nlinarith [mul_nonneg hs ht]
      rw [dist2_unit hx ha, dist2_unit hx hb, dist2_unit hx hu', e, (lin_dots ha hb s t x).2.2]
      rcases le_total (dot x a) (dot x b) with hle | hle
      · refine le_max_of_le_left ?_
        nlinarith [mul_le_mul_of_nonneg_left hle ht]
      · refine le_max_of_le_right ?_
        nlinarith [mul_le_mul_of_nonneg_left hle hs]

/-- A point over the middle of an edge, and the edge of length 90°. -/
example : UnitV (⟨1, 0, 0⟩ : Vec ℝ) ∧ UnitV (⟨0, 1, 0⟩ : Vec ℝ) ∧ UnitV (⟨0, 3 / 5, 4 / 5⟩ : Vec ℝ) ∧ (⟨0, 1, 0⟩ : Vec ℝ) ≠ smul (-1) ⟨1, 0, 0⟩ ∧
    OnEdge (⟨1, 0, 0⟩ : Vec ℝ) ⟨0, 1, 0⟩ ⟨3 / 5, 4 / 5, 0⟩ := by
  refine ⟨by norm_num [UnitV, dot], by norm_num [UnitV, dot], by norm_num [UnitV, dot], by norm_num [smul], by norm_num [UnitV, dot], 3 / 5, 4 / 5,
    by norm_num, by norm_num, by norm_num [lin]⟩

end Verif
