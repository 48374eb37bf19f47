import Verif.Properties.RectExact

/-!
# Edges across a parallel of latitude
-/

namespace Verif
open Spec S2 CellID

/-- The frame of `intersects_lat_edge`: the normal of the great circle on the side of the north pole, the horizontal direction and the highest point. -/
noncomputable def latZ (a b : Vec ℝ) : Vec ℝ :=
  let z := (Vec.pointCross _root_.id Real.sqrt a b).normalize _root_.id Real.sqrt
  if z.z < 0 then z.scale _root_.id (-1) else z

noncomputable def latY (a b : Vec ℝ) : Vec ℝ := (Vec.pointCross _root_.id Real.sqrt (latZ a b) ⟨0, 0, 1⟩).normalize _root_.id Real.sqrt

noncomputable def latX (a b : Vec ℝ) : Vec ℝ := (Vec.pointCross _root_.id Real.sqrt (latY a b) (latZ a b)).normalize _root_.id Real.sqrt

theorem latEdge_eq (atan2 : ℝ → ℝ → ℝ) (a b : Vec ℝ) (lat : ℝ) (lng : S1.Interval ℝ) :
    Rect.intersectsLatEdge Real.pi _root_.id Real.sqrt Real.sin atan2 a b lat lng =
      if |Real.sin lat| ≥ (latX a b).z then false
      else
        let c := Real.sin lat / (latX a b).z
        let s := Real.sqrt (1 - c * c)
        let θ := atan2 s c
        let ab := S1.Interval.fromPointPair Real.pi _root_.id (atan2 (dot a (latY a b)) (dot a (latX a b))) (atan2 (dot b (latY a b)) (dot b (latX a b)))
        let p := lin c (latX a b) s (latY a b)
        let q := lin c (latX a b) (-s) (latY a b)
        (ab.contains Real.pi θ && lng.contains Real.pi (atan2 p.y p.x)) || (ab.contains Real.pi (-θ) && lng.contains Real.pi (atan2 q.y q.x)) := by
  have e : ∀ c s : ℝ, lin c (latX a b) (-s) (latY a b) = ((latX a b).scale _root_.id c).sub _root_.id ((latY a b).scale _root_.id s) := by
    intro c s
    refine vec_ext' ?_ ?_ ?_ <;> simp only [lin, Vec.scale, Vec.sub, _root_.id] <;> ring
  have e2 : ∀ c s : ℝ, lin c (latX a b) s (latY a b) = ((latX a b).scale _root_.id c).add _root_.id ((latY a b).scale _root_.id s) := by
    intro c s
    refine vec_ext' ?_ ?_ ?_ <;> simp only [lin, Vec.scale, Vec.add, _root_.id] <;> ring
  simp only [e, e2]
  rfl

theorem cross_perp {p q : Vec ℝ} : dot (cross p q) p = 0 ∧ dot (cross p q) q = 0 := by
  constructor <;> simp only [dot, cross] <;> ring

/-- A vector by its components in an orthonormal basis. -/
theorem basis {y z : Vec ℝ} (uy : UnitV y) (uz : UnitV z) (yz : dot y z = 0) (p : Vec ℝ) :
    p.x = dot p (cross y z) * (cross y z).x + dot p y * y.x + dot p z * z.x ∧
    p.y = dot p (cross y z) * (cross y z).y + dot p y * y.y + dot p z * z.y ∧
    p.z = dot p (cross y z) * (cross y z).z + dot p y * y.z + dot p z * z.z := by
  have ux : dot (cross y z) (cross y z) = 1 := by
    simp only [UnitV, dot, cross] at uy uz yz ⊢
    linear_combination (z.x * z.x + z.y * z.y + z.z * z.z) * uy + uz - (y.x * z.x + y.y * z.y + y.z * z.z) * yz
  have k1 : cross z (cross y z) = y := by
    simp only [UnitV, dot] at uz yz
    refine vec_ext' ?_ ?_ ?_ <;> simp only [cross]
    · linear_combination y.x * uz - z.x * yz
    · linear_combination y.y * uz - z.y * yz
    · linear_combination y.z * uz - z.z * yz
  have k2 : cross (cross y z) y = z := by
    simp only [UnitV, dot] at uy yz
    refine vec_ext' ?_ ?_ ?_ <;> simp only [cross]
    · linear_combination z.x * uy - y.x * yz
    · linear_combination z.y * uy - y.y * yz
    · linear_combination z.z * uy - y.z * yz
  have D : ∀ x y z p : Vec ℝ, dot x (cross y z) * p.x = dot p (cross y z) * x.x + dot p (cross z x) * y.x + dot p (cross x y) * z.x ∧
      dot x (cross y z) * p.y = dot p (cross y z) * x.y + dot p (cross z x) * y.y + dot p (cross x y) * z.y ∧
      dot x (cross y z) * p.z = dot p (cross y z) * x.z + dot p (cross z x) * y.z + dot p (cross x y) * z.z := by
    intro x y z p
    refine ⟨?_, ?_, ?_⟩ <;> simp only [dot, cross] <;> ring
  have := D (cross y z) y z p
  rwa [ux, k1, k2, one_mul, one_mul, one_mul] at this

/-- What the frame is. -/
theorem latFrame {a b : Vec ℝ} (ha : UnitV a) (hb : UnitV b) (hab : ¬ IsZero (cross a b)) :
    UnitV (latX a b) ∧ UnitV (latY a b) ∧ dot (latX a b) (latY a b) = 0 ∧ (latY a b).z = 0 ∧ 0 ≤ (latX a b).z ∧
    (latX a b).z ^ 2 * dot (cross a b) (cross a b) = (cross a b).x ^ 2 + (cross a b).y ^ 2 ∧
    ∀ p, dot p (cross a b) = 0 → p = lin (dot p (latX a b)) (latX a b) (dot p (latY a b)) (latY a b) := by
  obtain ⟨c0, _, _, c3, _⟩ := c74_pointCross isSqrt_real (unit_ne ha) (ha.trans hb.symm)
  have e := c3 hab
  obtain ⟨t, t0, t1, t2⟩ := c74_normalize isSqrt_real c0
  rw [e] at t1 t2
  have hZ : ∃ k, k ≠ 0 ∧ latZ a b = smul k (cross a b) ∧ UnitV (latZ a b) ∧ 0 ≤ (latZ a b).z := by
    have ez : latZ a b = if (smul t (smul 2 (cross a b))).z < 0 then (smul t (smul 2 (cross a b))).scale _root_.id (-1) else smul t (smul 2 (cross a b)) := by
      unfold latZ
      dsimp only
      rw [e, t1]
    rw [t1] at t2
    split_ifs at ez with h
    · refine ⟨-(t * 2), neg_ne_zero.2 (by positivity), ?_, ?_, ?_⟩
      · rw [ez]; refine vec_ext' ?_ ?_ ?_ <;> simp only [Vec.scale, smul, _root_.id] <;> ring
      · rw [ez]; simp only [UnitV, dot, Vec.scale, smul, _root_.id] at t2 ⊢; linarith
      · rw [ez]; simp only [Vec.scale, smul, _root_.id] at h ⊢; linarith
    · refine ⟨t * 2, by positivity, ?_, ?_, ?_⟩
      · rw [ez]; refine vec_ext' ?_ ?_ ?_ <;> simp only [smul] <;> ring
      · rw [ez]; exact t2
      · rw [ez]; push Not at h; exact h
  obtain ⟨k, k0, ek, uz, z0⟩ := hZ
  have ue : UnitV (⟨0, 0, 1⟩ : Vec ℝ) := by norm_num [UnitV, dot]
  obtain ⟨y0, y1, y2, y3, y4⟩ := c74_pointCross isSqrt_real (unit_ne uz) (uz.trans ue.symm)
  obtain ⟨w, w0, w1, w2⟩ := c74_normalize isSqrt_real y0
  have eY : latY a b = smul w (Vec.pointCross _root_.id Real.sqrt (latZ a b) ⟨0, 0, 1⟩) := w1
  have uy : UnitV (latY a b) := w2
  have yz : dot (latY a b) (latZ a b) = 0 := by
    rw [eY]; simp only [dot, smul] at y1 ⊢; linear_combination w * y1
  have y3z : (latY a b).z = 0 := by
    rw [eY]; simp only [dot, smul] at y2 ⊢; linear_combination w * y2
  obtain ⟨x0, x1, x2, x3, _⟩ := c74_pointCross isSqrt_real (unit_ne uy) (uy.trans uz.symm)
  have ucross : dot (cross (latY a b) (latZ a b)) (cross (latY a b) (latZ a b)) = 1 := by
    simp only [UnitV, dot, cross] at uy uz yz ⊢
    linear_combination ((latZ a b).x * (latZ a b).x + (latZ a b).y * (latZ a b).y + (latZ a b).z * (latZ a b).z) * uy + uz -
      ((latY a b).x * (latZ a b).x + (latY a b).y * (latZ a b).y + (latY a b).z * (latZ a b).z) * yz
  have hx0 : ¬ IsZero (cross (latY a b) (latZ a b)) := unit_ne ucross
  have eX : latX a b = cross (latY a b) (latZ a b) := by
    obtain ⟨v, v0, v1, v2⟩ := c74_normalize isSqrt_real x0
    rw [v1, x3 hx0] at v2
    have : v * 2 = 1 := by
      have : (v * 2) ^ 2 = 1 := by
        simp only [dot, smul] at v2 ucross
        linear_combination v2 - (v * 2) ^ 2 * ucross
      nlinarith
    show Vec.normalize _ _ _ = _
    rw [v1, x3 hx0]
    rw [show v = 1 / 2 by linarith]
    refine vec_ext' ?_ ?_ ?_ <;> simp only [smul] <;> ring
  -- the height of the highest point
  have hz2 : (cross (latY a b) (latZ a b)).z ^ 2 = (latZ a b).x ^ 2 + (latZ a b).y ^ 2 := by
    simp only [UnitV, dot, cross] at uy uz yz ⊢
    rw [y3z] at uy yz
    linear_combination ((latZ a b).x ^ 2 + (latZ a b).y ^ 2) * uy - ((latY a b).x * (latZ a b).x + (latY a b).y * (latZ a b).y) * yz
  refine ⟨by rw [eX]; exact ucross, uy, ?_, y3z, ?_, ?_, ?_⟩
  · rw [eX]; exact cross_perp.1
  · rw [eX]
    by_cases hz : IsZero (cross (latZ a b) ⟨0, 0, 1⟩)
    · have h1 : (latZ a b).y = 0 := by have := hz.1; simp only [cross] at this; linarith
      have h2 : (latZ a b).x = 0 := by have := hz.2.1; simp only [cross] at this; linarith
      simp only [cross, h1, h2]; norm_num
    · rw [eY, y3 hz]
      simp only [cross, smul]
      nlinarith [mul_nonneg w0.le (mul_self_nonneg (latZ a b).x), mul_nonneg w0.le (mul_self_nonneg (latZ a b).y)]
  · have hk : k ^ 2 * dot (cross a b) (cross a b) = 1 := by
      have := uz
      rw [ek] at this
      simp only [UnitV, dot, smul] at this ⊢
      linear_combination this
    rw [eX, hz2, ek]
    simp only [smul]
    linear_combination ((cross a b).x ^ 2 + (cross a b).y ^ 2) * hk
  · intro p hp
    have hpz : dot p (latZ a b) = 0 := by
      rw [ek]; simp only [dot, smul] at hp ⊢; linear_combination k * hp
    rw [eX]
    obtain ⟨b1, b2, b3⟩ := basis uy uz yz p
    rw [hpz] at b1 b2 b3
    exact vec_ext' (by simp only [lin]; linarith) (by simp only [lin]; linarith) (by simp only [lin]; linarith)

/-- The arc between two angles that are less than half a turn apart. -/
theorem pair_contains {α β θ : ℝ} (a1 : -Real.pi < α) (a2 : α ≤ Real.pi) (b1 : -Real.pi < β) (b2 : β ≤ Real.pi) (t1 : -Real.pi < θ) (t2 : θ ≤ Real.pi)
    (h : Real.sin (β - α) ≠ 0) :
    (S1.Interval.fromPointPair Real.pi _root_.id α β).contains Real.pi θ = true ↔
      0 ≤ Real.sin (θ - α) * Real.sin (β - α) ∧ 0 ≤ Real.sin (β - θ) * Real.sin (β - α) := by
  have hp := Real.pi_pos
  have main : ∀ a b : ℝ, -Real.pi < a → a ≤ Real.pi → -Real.pi < b → b ≤ Real.pi → 0 < Real.sin (b - a) →
      ((⟨a, b⟩ : S1.Interval ℝ).contains Real.pi θ = true ↔ 0 ≤ Real.sin (θ - a) ∧ 0 ≤ Real.sin (b - θ)) := by
    intro a b a1 a2 b1 b2 h
    have k1 := sin_pos_cases h (by linarith) (by linarith)
    have e : (⟨a, b⟩ : S1.Interval ℝ).contains Real.pi θ = true ↔ S1.Mem Real.pi ⟨a, b⟩ θ := by
      unfold S1.Interval.contains
      rw [S1.Interval.toPi, if_neg t1.ne']
      exact S1.contains_iff
    rw [e]
    constructor
    · intro hm
      rw [S1.mem_iff] at hm
      dsimp only at hm
      have down : ∀ x : ℝ, -(2 * Real.pi) ≤ x → x ≤ -Real.pi → 0 ≤ Real.sin x := by
        intro x x1 x2
        rw [← Real.sin_add_two_pi]
        exact Real.sin_nonneg_of_nonneg_of_le_pi (by linarith) (by linarith)
      rcases hm with ⟨m1, m2, m3⟩ | ⟨m1, -, m2 | m2⟩
      · have := k1.resolve_right (by intro h; linarith)
        exact ⟨Real.sin_nonneg_of_nonneg_of_le_pi (by linarith) (by linarith), Real.sin_nonneg_of_nonneg_of_le_pi (by linarith) (by linarith)⟩
      · have := k1.resolve_left (by intro h; linarith)
        exact ⟨Real.sin_nonneg_of_nonneg_of_le_pi (by linarith) (by linarith), down _ (by linarith) (by linarith)⟩
      · have := k1.resolve_left (by intro h; linarith)
        exact ⟨down _ (by linarith) (by linarith), Real.sin_nonneg_of_nonneg_of_le_pi (by linarith) (by linarith)⟩
    · rintro ⟨m1, m2⟩
      exact arc_mem a1 a2 b1 b2 t1 t2 h m1 m2
  rcases lt_or_gt_of_ne h with h' | h'
  · have h'' : 0 < Real.sin (α - β) := by rw [← neg_sub, Real.sin_neg]; linarith
    rw [(addPoint_pair b1 b2 a1 a2 h'').2.2, main β α b1 b2 a1 a2 h'']
    rw [← neg_sub β θ, ← neg_sub θ α, Real.sin_neg, Real.sin_neg]
    constructor
    · rintro ⟨m1, m2⟩
      exact ⟨mul_nonneg_of_nonpos_of_nonpos (by linarith) h'.le, mul_nonneg_of_nonpos_of_nonpos (by linarith) h'.le⟩
    · rintro ⟨m1, m2⟩
      have n1 := nonpos_of_mul_nonneg_left m1 h'
      have n2 := nonpos_of_mul_nonneg_left m2 h'
      exact ⟨by linarith, by linarith⟩
  · rw [(addPoint_pair a1 a2 b1 b2 h').2.1, main α β a1 a2 b1 b2 h']
    constructor
    · rintro ⟨m1, m2⟩
      exact ⟨mul_nonneg m1 h'.le, mul_nonneg m2 h'.le⟩
    · rintro ⟨m1, m2⟩
      exact ⟨nonneg_of_mul_nonneg_left m1 h', nonneg_of_mul_nonneg_left m2 h'⟩

/-- The polar angle of a point of the unit circle. -/
theorem arg_unit {atan2 : ℝ → ℝ → ℝ} (h : IsArg atan2) {c s : ℝ} (e : c ^ 2 + s ^ 2 = 1) :
    -Real.pi < atan2 s c ∧ atan2 s c ≤ Real.pi ∧ Real.cos (atan2 s c) = c ∧ Real.sin (atan2 s c) = s := by
  obtain ⟨r, t, r0, t0, t1, ec, es, er⟩ := exists_polar c s
  have hr : r = 1 := by rw [e] at er; nlinarith
  rw [hr, one_mul] at ec es
  have := h.1 1 t one_pos t0 t1
  rw [one_mul, one_mul, ← ec, ← es] at this
  rw [this]
  exact ⟨t0, t1, ec.symm, es.symm⟩

/-- The points of an edge by their angles in the plane of the edge. -/
theorem onEdge_angles {x y : Vec ℝ} (ux : UnitV x) (uy : UnitV y) (xy : dot x y = 0) {α β θ : ℝ} (h : Real.sin (β - α) ≠ 0) :
    OnEdge (lin (Real.cos α) x (Real.sin α) y) (lin (Real.cos β) x (Real.sin β) y) (lin (Real.cos θ) x (Real.sin θ) y) ↔
      0 ≤ Real.sin (θ - α) * Real.sin (β - α) ∧ 0 ≤ Real.sin (β - θ) * Real.sin (β - α) := by
  have h2 : 0 < Real.sin (β - α) ^ 2 := by positivity
  constructor
  · rintro ⟨_, s, t, hs, ht, e⟩
    have d : ∀ c s : ℝ, dot (lin c x s y) x = c ∧ dot (lin c x s y) y = s := by
      intro c s
      simp only [UnitV, dot, lin] at ux uy xy ⊢
      exact ⟨by linear_combination c * ux + s * xy, by linear_combination c * xy + s * uy⟩
    have e0 : lin (Real.cos θ) x (Real.sin θ) y = lin (s * Real.cos α + t * Real.cos β) x (s * Real.sin α + t * Real.sin β) y := by
      rw [e]; refine vec_ext' ?_ ?_ ?_ <;> simp only [lin] <;> ring
    have e1 : Real.cos θ = s * Real.cos α + t * Real.cos β := by
      rw [← (d (Real.cos θ) (Real.sin θ)).1, e0, (d _ _).1]
    have e2 : Real.sin θ = s * Real.sin α + t * Real.sin β := by
      rw [← (d (Real.cos θ) (Real.sin θ)).2, e0, (d _ _).2]
    have k1 : Real.sin (θ - α) = t * Real.sin (β - α) := by rw [Real.sin_sub, Real.sin_sub, e1, e2]; ring
    have k2 : Real.sin (β - θ) = s * Real.sin (β - α) := by rw [Real.sin_sub, Real.sin_sub, e1, e2]; ring
    rw [k1, k2]
    exact ⟨by nlinarith [mul_nonneg ht h2.le], by nlinarith [mul_nonneg hs h2.le]⟩
  · rintro ⟨h1, h3⟩
    refine ⟨?_, Real.sin (β - θ) * Real.sin (β - α) / Real.sin (β - α) ^ 2, Real.sin (θ - α) * Real.sin (β - α) / Real.sin (β - α) ^ 2,
      div_nonneg h3 h2.le, div_nonneg h1 h2.le, ?_⟩
    · have := Real.sin_sq_add_cos_sq θ
      simp only [UnitV, dot, lin] at ux uy xy ⊢
      linear_combination Real.cos θ ^ 2 * ux + Real.sin θ ^ 2 * uy + 2 * Real.cos θ * Real.sin θ * xy + this
    · have k1 : Real.sin (β - θ) * Real.cos α + Real.sin (θ - α) * Real.cos β = Real.cos θ * Real.sin (β - α) := by
        rw [Real.sin_sub, Real.sin_sub, Real.sin_sub]; ring
      have k2 : Real.sin (β - θ) * Real.sin α + Real.sin (θ - α) * Real.sin β = Real.sin θ * Real.sin (β - α) := by
        rw [Real.sin_sub, Real.sin_sub, Real.sin_sub]; ring
      refine vec_ext' ?_ ?_ ?_ <;> simp only [lin] <;> field_simp
      · linear_combination (-x.x) * k1 - y.x * k2
      · linear_combination (-x.y) * k1 - y.y * k2
      · linear_combination (-x.z) * k1 - y.z * k2

/-- **C93.** `intersects_lat_edge`: a point of the edge is at the latitude and in the range of longitudes, and the great circle crosses that
parallel (does not only touch it). -/
theorem c93_latEdge {atan2 : ℝ → ℝ → ℝ} (h : IsArg atan2) {a b : Vec ℝ} (ha : UnitV a) (hb : UnitV b) (hab : ¬ IsZero (cross a b)) (lat : ℝ)
    (lng : S1.Interval ℝ) :
    Rect.intersectsLatEdge Real.pi _root_.id Real.sqrt Real.sin atan2 a b lat lng = true ↔
      Real.sin lat ^ 2 * dot (cross a b) (cross a b) < (cross a b).x ^ 2 + (cross a b).y ^ 2 ∧
      ∃ p, OnEdge a b p ∧ p.z = Real.sin lat ∧ lng.contains Real.pi (atan2 p.y p.x) = true := by
  obtain ⟨ux, uy, xy, yz, x0, x2, hin⟩ := latFrame ha hb hab
  rw [latEdge_eq]
  generalize latX a b = x at *
  generalize latY a b = y at *
  have hn : 0 < dot (cross a b) (cross a b) := by
    rcases (add_nonneg (add_nonneg (mul_self_nonneg (cross a b).x) (mul_self_nonneg (cross a b).y)) (mul_self_nonneg (cross a b).z)).eq_or_lt with e | e
    · exfalso
      apply hab
      have e1 := mul_self_nonneg (cross a b).x
      have e2 := mul_self_nonneg (cross a b).y
      have e3 := mul_self_nonneg (cross a b).z
      exact ⟨mul_self_eq_zero.1 (by linarith), mul_self_eq_zero.1 (by linarith), mul_self_eq_zero.1 (by linarith)⟩
    · exact e
  have hcond : |Real.sin lat| < x.z ↔ Real.sin lat ^ 2 * dot (cross a b) (cross a b) < (cross a b).x ^ 2 + (cross a b).y ^ 2 := by
    rw [← x2, mul_lt_mul_iff_left₀ hn, ← sq_abs (Real.sin lat), sq_lt_sq₀ (abs_nonneg _) x0]
  rw [← hcond]
  by_cases hc : |Real.sin lat| < x.z
  swap
  · rw [if_pos (not_lt.1 hc)]
    simp [hc]
  rw [if_neg (not_le.2 hc)]
  simp only [hc, true_and]
  have xz : 0 < x.z := lt_of_le_of_lt (abs_nonneg _) hc
  set c := Real.sin lat / x.z with hcdef
  have cx : c * x.z = Real.sin lat := div_mul_cancel₀ _ xz.ne'
  have c1 : c ^ 2 < 1 := by
    rw [hcdef, div_pow, div_lt_one (by positivity), ← sq_abs (Real.sin lat), sq_lt_sq₀ (abs_nonneg _) x0]
    exact hc
  have hs2 : Real.sqrt (1 - c * c) ^ 2 = 1 - c * c := Real.sq_sqrt (by nlinarith)
  have hs0 : 0 < Real.sqrt (1 - c * c) := Real.sqrt_pos.2 (by nlinarith)
  set s := Real.sqrt (1 - c * c) with hsdef
  obtain ⟨t1, t2, t3, t4⟩ := arg_unit h (c := c) (s := s) (by linarith)
  have t0 : atan2 s c < Real.pi := by
    refine lt_of_le_of_ne t2 fun e => ?_
    rw [e, Real.sin_pi] at t4
    linarith
  set θ := atan2 s c with hθ
  -- the ends
  have ends : ∀ v, UnitV v → dot v (cross a b) = 0 → (dot v x) ^ 2 + (dot v y) ^ 2 = 1 := by
    intro v hv hvn
    have e := hin v hvn
    have hv' := hv
    rw [e] at hv'
    simp only [UnitV, dot, lin] at hv' ux uy xy ⊢
    linear_combination hv' - (v.x * x.x + v.y * x.y + v.z * x.z) ^ 2 * ux - (v.x * y.x + v.y * y.y + v.z * y.z) ^ 2 * uy -
      2 * (v.x * x.x + v.y * x.y + v.z * x.z) * (v.x * y.x + v.y * y.y + v.z * y.z) * xy
  have pa : dot a (cross a b) = 0 := by simp only [dot, cross]; ring
  have pb : dot b (cross a b) = 0 := by simp only [dot, cross]; ring
  obtain ⟨a1, a2, a3, a4⟩ := arg_unit h (ends a ha pa)
  obtain ⟨b1, b2, b3, b4⟩ := arg_unit h (ends b hb pb)
  have ea := hin a pa
  have eb := hin b pb
  generalize atan2 (dot a y) (dot a x) = α at *
  generalize atan2 (dot b y) (dot b x) = β at *
  rw [← a3, ← a4] at ea
  rw [← b3, ← b4] at eb
  have hne : Real.sin (β - α) ≠ 0 := by
    intro h0
    apply hab
    have h0' : Real.sin β * Real.cos α - Real.cos β * Real.sin α = 0 := by rw [← Real.sin_sub]; exact h0
    rw [ea, eb]
    refine ⟨?_, ?_, ?_⟩ <;> simp only [cross, lin]
    · linear_combination (x.y * y.z - x.z * y.y) * h0'
    · linear_combination (x.z * y.x - x.x * y.z) * h0'
    · linear_combination (x.x * y.y - x.y * y.x) * h0'
  have hon : ∀ t, -Real.pi < t → t ≤ Real.pi →
      ((S1.Interval.fromPointPair Real.pi _root_.id α β).contains Real.pi t = true ↔ OnEdge a b (lin (Real.cos t) x (Real.sin t) y)) := by
    intro t u1 u2
    rw [pair_contains a1 a2 b1 b2 u1 u2 hne, ← onEdge_angles ux uy xy hne, ← ea, ← eb]
  have on1 := hon θ t1 t2
  have on2 := hon (-θ) (by linarith) (by linarith)
  rw [t3, t4] at on1
  rw [Real.cos_neg, Real.sin_neg, t3, t4] at on2
  rw [Bool.or_eq_true, Bool.and_eq_true, Bool.and_eq_true, on1, on2]
  have hz : ∀ w, (lin c x w y).z = Real.sin lat := by
    intro w
    show c * x.z + w * y.z = _
    rw [yz, cx]; ring
  constructor
  · rintro (⟨k1, k2⟩ | ⟨k1, k2⟩)
    · exact ⟨_, k1, hz _, k2⟩
    · exact ⟨_, k1, hz _, k2⟩
  · rintro ⟨p, hp, hpz, hl⟩
    have hpn : dot p (cross a b) = 0 := by
      obtain ⟨_, u, v, _, _, rfl⟩ := hp
      simp only [dot, lin, cross]; ring
    have ep := hin p hpn
    have hu := ends p hp.1 hpn
    have hpz' : dot p x * x.z = Real.sin lat := by
      rw [← hpz]
      conv_rhs => rw [ep]
      show _ = dot p x * x.z + dot p y * y.z
      rw [yz]; ring
    have hpx : dot p x = c := by
      have : dot p x * x.z = c * x.z := by rw [hpz', cx]
      exact mul_right_cancel₀ xz.ne' this
    rw [hpx] at hu ep
    have : (dot p y - s) * (dot p y + s) = 0 := by linear_combination hu - hs2
    rcases mul_eq_zero.1 this with e | e
    · have e' : dot p y = s := by linarith
      rw [e'] at ep
      left
      rw [← ep]
      exact ⟨hp, hl⟩
    · have e' : dot p y = -s := by linarith
      rw [e'] at ep
      right
      rw [← ep]
      exact ⟨hp, hl⟩

end Verif
