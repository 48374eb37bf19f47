import Verif.Proofs.LatBudget
import Verif.Proofs.LatEdge
import Verif.Model.RectBounder

/-!
# The bounding rectangle of an edge
-/

namespace Verif
open Spec S2 CellID

theorem arcsin_mul_mono {A x y : ℝ} (h0 : 0 ≤ A) (h : Real.cos x ≤ Real.cos y) : Real.arcsin (A * Real.cos x) ≤ Real.arcsin (A * Real.cos y) :=
  Real.monotone_arcsin (mul_le_mul_of_nonneg_left h h0)

theorem peak_cases_aux {α β θ : ℝ} (a0 : -Real.pi ≤ α) (a1 : α < Real.pi) (h3 : β < α + Real.pi) (h4 : α ≤ θ) (h5 : θ ≤ β)
    (k1 : Real.cos α < Real.cos θ) (k2 : Real.cos β < Real.cos θ) : α ≤ 0 ∧ 0 ≤ β ∧ β ≤ Real.pi := by
  have hp := Real.pi_pos
  have up : ∀ x y : ℝ, Real.pi ≤ x → x ≤ y → y ≤ 2 * Real.pi → Real.cos x ≤ Real.cos y := by
    intro x y hx hxy hy
    rw [← Real.cos_two_pi_sub x, ← Real.cos_two_pi_sub y]
    exact Real.cos_le_cos_of_nonneg_of_le_pi (by linarith) (by linarith) (by linarith)
  rcases le_or_gt 0 α with ha | ha
  · exfalso
    rcases le_or_gt θ Real.pi with ht | ht
    · have := Real.cos_le_cos_of_nonneg_of_le_pi ha ht h4
      linarith
    · have := up θ β ht.le h5 (by linarith)
      linarith
  · refine ⟨ha.le, ?_, by linarith⟩
    by_contra hb
    push Not at hb
    have := Real.cos_le_cos_of_nonneg_of_le_pi (x := -β) (y := -θ) (by linarith) (by linarith) (by linarith)
    rw [Real.cos_neg, Real.cos_neg] at this
    linarith

/-- Turning by full turns. -/
theorem shift_range (α : ℝ) : ∃ k : ℤ, -Real.pi ≤ α + k * (2 * Real.pi) ∧ α + k * (2 * Real.pi) < Real.pi := by
  have hp := Real.pi_pos
  refine ⟨-⌊(α + Real.pi) / (2 * Real.pi)⌋, ?_, ?_⟩
  · have := Int.floor_le ((α + Real.pi) / (2 * Real.pi))
    rw [le_div_iff₀ (by linarith)] at this
    push_cast; linarith
  · have := Int.lt_floor_add_one ((α + Real.pi) / (2 * Real.pi))
    rw [div_lt_iff₀ (by linarith)] at this
    push_cast; linarith

/-- A latitude above those of the ends of an edge. -/
theorem peak_cases {A : ℝ} (h0 : 0 ≤ A) (h1 : A ≤ 1) {α β θ : ℝ} (h3 : β < α + Real.pi) (h4 : α ≤ θ) (h5 : θ ≤ β) :
    Real.arcsin (A * Real.cos θ) ≤ max (Real.arcsin (A * Real.cos α)) (Real.arcsin (A * Real.cos β)) ∨
    (Real.sin α ≤ 0 ∧ 0 ≤ Real.sin β ∧ Real.arcsin (A * Real.cos θ) ≤ Real.arcsin A ∧
      2 * Real.arcsin (A * Real.cos θ) ≤ Real.arcsin (A * Real.cos α) + Real.arcsin (A * Real.cos β) + 2 * Real.arcsin (A * Real.sin ((β - α) / 2))) := by
  have hp := Real.pi_pos
  obtain ⟨k, s1, s2⟩ := shift_range α
  rcases le_or_gt (Real.cos θ) (Real.cos α) with c1 | c1
  · exact Or.inl ((arcsin_mul_mono h0 c1).trans (le_max_left _ _))
  rcases le_or_gt (Real.cos θ) (Real.cos β) with c2 | c2
  · exact Or.inl ((arcsin_mul_mono h0 c2).trans (le_max_right _ _))
  right
  have top : Real.arcsin (A * Real.cos θ) ≤ Real.arcsin A := by
    have := arcsin_mul_mono h0 (x := θ) (y := 0) (by rw [Real.cos_zero]; exact Real.cos_le_one _)
    rwa [Real.cos_zero, mul_one] at this
  rw [← Real.cos_add_int_mul_two_pi α k, ← Real.cos_add_int_mul_two_pi θ k] at c1
  rw [← Real.cos_add_int_mul_two_pi β k, ← Real.cos_add_int_mul_two_pi θ k] at c2
  obtain ⟨r1, r2, r3⟩ := peak_cases_aux s1 s2 (by linarith) (by linarith) (by linarith) c1 c2
  have e1 := Real.cos_add_int_mul_two_pi α k
  have e2 := Real.cos_add_int_mul_two_pi β k
  have pk := lat_peak h0 h1 (α := -(α + k * (2 * Real.pi))) (β := β + k * (2 * Real.pi)) (by linarith) (by linarith) (by linarith)
  rw [Real.cos_neg, e1, e2, show -(α + k * (2 * Real.pi)) + (β + k * (2 * Real.pi)) = β - α by ring] at pk
  refine ⟨?_, ?_, top, by linarith⟩
  · rw [← Real.sin_add_int_mul_two_pi α k]
    exact Real.sin_nonpos_of_nonpos_of_neg_pi_le r1 s1
  · rw [← Real.sin_add_int_mul_two_pi β k]
    exact Real.sin_nonneg_of_nonneg_of_le_pi r2 r3

/-- The highest point is on the edge. -/
theorem peak_attained {α β : ℝ} (h2 : α < β) (h3 : β < α + Real.pi) (k1 : Real.sin α ≤ 0) (k2 : 0 ≤ Real.sin β) :
    ∃ θ, α ≤ θ ∧ θ ≤ β ∧ Real.cos θ = 1 := by
  have hp := Real.pi_pos
  obtain ⟨k, s1, s2⟩ := shift_range α
  have e1 := Real.sin_add_int_mul_two_pi α k
  have e2 := Real.sin_add_int_mul_two_pi β k
  refine ⟨-(k * (2 * Real.pi)), ?_, ?_, ?_⟩
  · by_contra hc
    have := Real.sin_pos_of_pos_of_lt_pi (x := α + k * (2 * Real.pi)) (by linarith) s2
    linarith
  · by_contra hc
    have := Real.sin_neg_of_neg_of_neg_pi_lt (x := β + k * (2 * Real.pi)) (by linarith) (by linarith)
    linarith
  · rw [Real.cos_neg, ← zero_add ((k : ℝ) * (2 * Real.pi)), Real.cos_add_int_mul_two_pi, Real.cos_zero]

/-- The points of an edge by their angles from the highest point of its great circle. -/
theorem edge_param {a b : Vec ℝ} (ha : UnitV a) (hb : UnitV b) (hab : ¬ IsZero (cross a b)) :
    ∃ x y α β, UnitV x ∧ UnitV y ∧ dot x y = 0 ∧ y.z = 0 ∧ 0 ≤ x.z ∧ α < β ∧ β < α + Real.pi ∧
      a = lin (Real.cos α) x (Real.sin α) y ∧ b = lin (Real.cos β) x (Real.sin β) y ∧
      (∀ p, OnEdge a b p ↔ ∃ θ, α ≤ θ ∧ θ ≤ β ∧ p = lin (Real.cos θ) x (Real.sin θ) y) := by
  have hp := Real.pi_pos
  obtain ⟨ux, uy, xy, yz, x0, x2, hin⟩ := latFrame ha hb hab
  generalize latX a b = x at *
  generalize latY a b = y at *
  -- polar angles in the plane
  have pol : ∀ p, UnitV p → dot p (cross a b) = 0 → ∃ t, -Real.pi < t ∧ t ≤ Real.pi ∧ p = lin (Real.cos t) x (Real.sin t) y := by
    intro p up hpn
    have e := hin p hpn
    obtain ⟨r, t, r0, t0, t1, ec, es, er⟩ := exists_polar (dot p x) (dot p y)
    have hr : r = 1 := by
      have : (dot p x) ^ 2 + (dot p y) ^ 2 = 1 := by
        have u := up
        rw [UnitV, e] at u
        simp only [UnitV, dot, lin] at u ux uy xy ⊢
        generalize p.x * x.x + p.y * x.y + p.z * x.z = c at *
        generalize p.x * y.x + p.y * y.y + p.z * y.z = s at *
        linear_combination u - c ^ 2 * ux - s ^ 2 * uy - 2 * c * s * xy
      rw [this] at er; nlinarith
    rw [hr, one_mul] at ec es
    exact ⟨t, t0, t1, by rw [ec, es] at e; exact e⟩
  obtain ⟨α, a0, a1, ea⟩ := pol a ha (by simp only [dot, cross]; ring)
  obtain ⟨β, b0, b1, eb⟩ := pol b hb (by simp only [dot, cross]; ring)
  have ecr : cross a b = smul (Real.sin (β - α)) (cross x y) := by
    rw [ea, eb, Real.sin_sub]
    refine vec_ext' ?_ ?_ ?_ <;> simp only [cross, lin, smul] <;> ring
  have hs : Real.sin (β - α) ≠ 0 := by
    intro h
    apply hab
    rw [ecr, h]
    simp [smul, IsZero]
  -- the general case, for either direction of the second axis
  have main : ∀ y α β, UnitV y → dot x y = 0 → y.z = 0 → -Real.pi ≤ α → α ≤ Real.pi → -Real.pi ≤ β → β ≤ Real.pi → 0 < Real.sin (β - α) →
      a = lin (Real.cos α) x (Real.sin α) y → b = lin (Real.cos β) x (Real.sin β) y →
      (∀ p, UnitV p → dot p (cross a b) = 0 → ∃ t, -Real.pi ≤ t ∧ t ≤ Real.pi ∧ p = lin (Real.cos t) x (Real.sin t) y) →
      ∃ x y α β, UnitV x ∧ UnitV y ∧ dot x y = 0 ∧ y.z = 0 ∧ 0 ≤ x.z ∧ α < β ∧ β < α + Real.pi ∧
      a = lin (Real.cos α) x (Real.sin α) y ∧ b = lin (Real.cos β) x (Real.sin β) y ∧
      (∀ p, OnEdge a b p ↔ ∃ θ, α ≤ θ ∧ θ ≤ β ∧ p = lin (Real.cos θ) x (Real.sin θ) y) := by
    intro y α β uy xy yz a0 a1 b0 b1 hs ea eb pol
    have hβ : ∃ β', α < β' ∧ β' < α + Real.pi ∧ Real.cos β' = Real.cos β ∧ Real.sin β' = Real.sin β := by
      rcases lt_or_ge (β - α) 0 with h | h
      · refine ⟨β + 2 * Real.pi, ?_, ?_, Real.cos_add_two_pi _, Real.sin_add_two_pi _⟩
        · by_contra hc
          have e : β - α = -(2 * Real.pi) := by linarith
          rw [e, Real.sin_neg, Real.sin_two_pi] at hs
          linarith
        · by_contra hc
          have := Real.sin_nonpos_of_nonpos_of_neg_pi_le h.le (by linarith)
          linarith
      · refine ⟨β, ?_, ?_, rfl, rfl⟩
        · rcases h.eq_or_lt with h | h
          · rw [← h, Real.sin_zero] at hs; exact absurd hs (lt_irrefl _)
          · linarith
        · by_contra hc
          have := Real.sin_nonneg_of_nonneg_of_le_pi (x := 2 * Real.pi - (β - α)) (by linarith) (by linarith)
          rw [Real.sin_two_pi_sub] at this
          linarith
    obtain ⟨β', b2, b3, ec, es⟩ := hβ
    rw [← ec, ← es] at eb
    have hs' : 0 < Real.sin (β' - α) := Real.sin_pos_of_pos_of_lt_pi (by linarith) (by linarith)
    refine ⟨x, y, α, β', ux, uy, xy, yz, x0, b2, b3, ea, eb, fun p => ⟨fun hpe => ?_, ?_⟩⟩
    · obtain ⟨t, t0, t1, et⟩ := pol p hpe.1 (by
        obtain ⟨_, s, t, _, _, e⟩ := hpe
        rw [e]; simp only [dot, cross, lin]; ring)
      rw [et, ea, eb, onEdge_angles ux uy xy hs'.ne'] at hpe
      have k1 := nonneg_of_mul_nonneg_left hpe.1 hs'
      have k2 := nonneg_of_mul_nonneg_left hpe.2 hs'
      obtain ⟨k, s1, s2⟩ := shift_range (t - α - Real.pi)
      have f1 := Real.sin_add_int_mul_two_pi (t - α) k
      refine ⟨t + k * (2 * Real.pi), ?_, ?_, ?_⟩
      · linarith
      · by_contra hc
        push Not at hc
        have f2 : 0 ≤ Real.sin (β' - (t + k * (2 * Real.pi))) := by
          rw [show β' - (t + k * (2 * Real.pi)) = β' - t - k * (2 * Real.pi) by ring, Real.sin_sub_int_mul_two_pi]; exact k2
        rcases lt_or_ge (-Real.pi) (β' - (t + k * (2 * Real.pi))) with h | h
        · have := Real.sin_neg_of_neg_of_neg_pi_lt (by linarith) h
          linarith
        · have : Real.sin (t - α + k * (2 * Real.pi)) < 0 := by
            rw [← Real.sin_sub_two_pi]
            exact Real.sin_neg_of_neg_of_neg_pi_lt (by linarith) (by linarith)
          linarith
      · rw [Real.cos_add_int_mul_two_pi, Real.sin_add_int_mul_two_pi]; exact et
    · rintro ⟨θ, t0, t1, et⟩
      rw [et, ea, eb, onEdge_angles ux uy xy hs'.ne']
      exact ⟨mul_nonneg (Real.sin_nonneg_of_nonneg_of_le_pi (by linarith) (by linarith)) hs'.le,
        mul_nonneg (Real.sin_nonneg_of_nonneg_of_le_pi (by linarith) (by linarith)) hs'.le⟩
  rcases lt_or_gt_of_ne hs with h | h
  · have flip : ∀ t : ℝ, lin (Real.cos t) x (Real.sin t) y = lin (Real.cos (-t)) x (Real.sin (-t)) (smul (-1) y) := by
      intro t
      rw [Real.cos_neg, Real.sin_neg]
      refine vec_ext' ?_ ?_ ?_ <;> simp only [lin, smul] <;> ring
    refine main (smul (-1) y) (-α) (-β) ?_ ?_ ?_ (by linarith) (by linarith) (by linarith) (by linarith) ?_ (by rw [← flip]; exact ea) (by rw [← flip]; exact eb) ?_
    · simp only [UnitV, dot, smul] at uy ⊢; linarith
    · simp only [dot, smul] at xy ⊢; linarith
    · simp only [smul, yz]; norm_num
    · rw [show -β - -α = -(β - α) by ring, Real.sin_neg]; linarith
    · intro p up hpn
      obtain ⟨t, t0, t1, et⟩ := pol p up hpn
      exact ⟨-t, by linarith, by linarith, by rw [← flip]; exact et⟩
  · refine main y α β uy xy yz a0.le a1 b0.le b1 h ea eb fun p up hpn => ?_
    obtain ⟨t, t0, t1, et⟩ := pol p up hpn
    exact ⟨t, t0.le, t1, et⟩

theorem latOf_unit {atan2 : ℝ → ℝ → ℝ} (h : IsArg atan2) {p : Vec ℝ} (hp : UnitV p) : latOf atan2 p = Real.arcsin p.z := by
  obtain ⟨s, s0, e, q1, q2, q3, q4⟩ := latlng_dir h (unit_ne hp)
  have s1 : s = 1 := by
    have u := hp
    have ud := unit_direction (latOf atan2 p) (lngOf atan2 p)
    rw [UnitV, e] at u
    simp only [UnitV, dot, smul] at u ud
    have : s ^ 2 = 1 := by linear_combination u - s ^ 2 * ud
    nlinarith
  have ez : p.z = Real.sin (latOf atan2 p) := by
    conv_lhs => rw [e, s1]
    simp [smul, direction]
  rw [ez, Real.arcsin_sin q1 q2]

/-- The numbers that `add_point` computes for an edge, in exact arithmetic. -/
theorem edge_values {atan2 : ℝ → ℝ → ℝ} (h : IsArg atan2) {x y a b : Vec ℝ} {α β : ℝ} (ux : UnitV x) (uy : UnitV y) (xy : dot x y = 0) (yz : y.z = 0)
    (x0 : 0 ≤ x.z) (h2 : α < β) (h3 : β < α + Real.pi) (ea : a = lin (Real.cos α) x (Real.sin α) y) (eb : b = lin (Real.cos β) x (Real.sin β) y) :
    x.z ≤ 1 ∧ latOf atan2 a = Real.arcsin (x.z * Real.cos α) ∧ latOf atan2 b = Real.arcsin (x.z * Real.cos β) ∧
    (RectBounder.normal _root_.id a b).norm _root_.id Real.sqrt = 2 * Real.sin (β - α) ∧
    (Vec.cross _root_.id (RectBounder.normal _root_.id a b) ⟨0, 0, 1⟩).dot _root_.id a = 2 * Real.sin (β - α) * (x.z * Real.sin α) ∧
    (Vec.cross _root_.id (RectBounder.normal _root_.id a b) ⟨0, 0, 1⟩).dot _root_.id b = 2 * Real.sin (β - α) * (x.z * Real.sin β) ∧
    (Vec.sub _root_.id a b).norm _root_.id Real.sqrt = 2 * Real.sin ((β - α) / 2) ∧
    ∀ eps, RectBounder.maxLat Real.pi _root_.id Real.sqrt atan2 eps (RectBounder.normal _root_.id a b) = min (Real.arcsin x.z + 3 * eps) (Real.pi / 2) := by
  have hp := Real.pi_pos
  have sp : 0 < Real.sin (β - α) := Real.sin_pos_of_pos_of_lt_pi (by linarith) (by linarith)
  have sp2 : 0 < Real.sin ((β - α) / 2) := Real.sin_pos_of_pos_of_lt_pi (by linarith) (by linarith)
  have hx1 : x.z ≤ 1 := by
    simp only [UnitV, dot] at ux
    nlinarith [mul_self_nonneg x.x, mul_self_nonneg x.y]
  have ul : ∀ t, UnitV (lin (Real.cos t) x (Real.sin t) y) := by
    intro t
    have := Real.sin_sq_add_cos_sq t
    simp only [UnitV, dot, lin] at ux uy xy ⊢
    linear_combination Real.cos t ^ 2 * ux + Real.sin t ^ 2 * uy + 2 * Real.cos t * Real.sin t * xy + this
  have lz : ∀ t, (lin (Real.cos t) x (Real.sin t) y).z = x.z * Real.cos t := by
    intro t; simp only [lin, yz]; ring
  have en : RectBounder.normal _root_.id a b = smul (2 * Real.sin (β - α)) (cross x y) := by
    rw [ea, eb, Real.sin_sub]
    unfold RectBounder.normal
    refine vec_ext' ?_ ?_ ?_ <;> simp only [Vec.cross, Vec.sub, Vec.add, _root_.id, cross, lin, smul] <;> ring
  have uc : UnitV (cross x y) := by
    simp only [UnitV, dot, cross] at ux uy xy ⊢
    linear_combination (y.x * y.x + y.y * y.y + y.z * y.z) * ux + uy - (x.x * y.x + x.y * y.y + x.z * y.z) * xy
  have en2 : (RectBounder.normal _root_.id a b).norm _root_.id Real.sqrt = 2 * Real.sin (β - α) := by
    have e : (RectBounder.normal _root_.id a b).norm _root_.id Real.sqrt = Real.sqrt (dot (RectBounder.normal _root_.id a b) (RectBounder.normal _root_.id a b)) := rfl
    rw [e, en, show dot (smul (2 * Real.sin (β - α)) (cross x y)) (smul (2 * Real.sin (β - α)) (cross x y)) = (2 * Real.sin (β - α)) ^ 2 by
      simp only [UnitV] at uc
      calc _ = (2 * Real.sin (β - α)) ^ 2 * dot (cross x y) (cross x y) := by simp only [dot, smul]; ring
        _ = _ := by rw [uc, mul_one]]
    exact Real.sqrt_sq (by linarith)
  -- the derivative of the height along the edge
  have dz : (cross x y).y * y.x - (cross x y).x * y.y = x.z ∧ (cross x y).y * x.x - (cross x y).x * x.y = 0 := by
    simp only [UnitV, dot, cross] at ux uy xy ⊢
    rw [yz] at uy xy ⊢
    exact ⟨by linear_combination x.z * uy, by linear_combination x.z * xy⟩
  have em : ∀ t, (Vec.cross _root_.id (RectBounder.normal _root_.id a b) ⟨0, 0, 1⟩).dot _root_.id (lin (Real.cos t) x (Real.sin t) y) =
      2 * Real.sin (β - α) * (x.z * Real.sin t) := by
    intro t
    rw [en]
    simp only [Vec.cross, Vec.dot, _root_.id, smul, lin]
    linear_combination 2 * Real.sin (β - α) * Real.sin t * dz.1 + 2 * Real.sin (β - α) * Real.cos t * dz.2
  refine ⟨hx1, ?_, ?_, en2, ?_, ?_, ?_, ?_⟩
  · rw [latOf_unit h (by rw [ea]; exact ul α), ea, lz]
  · rw [latOf_unit h (by rw [eb]; exact ul β), eb, lz]
  · have := em α
    rw [← ea] at this
    exact this
  · have := em β
    rw [← eb] at this
    exact this
  · have e : (Vec.sub _root_.id a b).norm _root_.id Real.sqrt = Real.sqrt ((a.x - b.x) * (a.x - b.x) + (a.y - b.y) * (a.y - b.y) + (a.z - b.z) * (a.z - b.z)) := rfl
    rw [e, show (a.x - b.x) * (a.x - b.x) + (a.y - b.y) * (a.y - b.y) + (a.z - b.z) * (a.z - b.z) = (2 * Real.sin ((β - α) / 2)) ^ 2 by
      have e1 : Real.cos (β - α) = 1 - 2 * Real.sin ((β - α) / 2) ^ 2 := by
        have := Real.cos_two_mul ((β - α) / 2)
        rw [show 2 * ((β - α) / 2) = β - α by ring] at this
        have s := Real.sin_sq_add_cos_sq ((β - α) / 2)
        linarith
      rw [Real.cos_sub] at e1
      have s1 := Real.sin_sq_add_cos_sq α
      have s2 := Real.sin_sq_add_cos_sq β
      rw [ea, eb]
      simp only [UnitV, dot, lin] at ux uy xy ⊢
      linear_combination (Real.cos α - Real.cos β) ^ 2 * ux + (Real.sin α - Real.sin β) ^ 2 * uy + 2 * (Real.cos α - Real.cos β) * (Real.sin α - Real.sin β) * xy + s1 + s2 - 2 * e1]
    exact Real.sqrt_sq (by linarith)
  · intro eps
    unfold RectBounder.maxLat
    simp only [_root_.id]
    have hA : -1 ≤ x.z := by linarith
    have e1 : (cross x y).x ^ 2 + (cross x y).y ^ 2 = x.z ^ 2 := by
      simp only [UnitV, dot, cross] at uy xy ⊢
      rw [yz] at uy xy ⊢
      linear_combination x.z ^ 2 * uy
    have e2 : (cross x y).z ^ 2 = Real.cos (Real.arcsin x.z) ^ 2 := by
      rw [Real.cos_arcsin, Real.sq_sqrt (by nlinarith)]
      simp only [UnitV, dot] at uc
      linarith
    have c0 := Real.cos_arcsin_nonneg x.z
    rw [en]
    have r0 : 0 < 2 * Real.sin (β - α) := by linarith
    have f1 : Real.sqrt ((smul (2 * Real.sin (β - α)) (cross x y)).x * (smul (2 * Real.sin (β - α)) (cross x y)).x +
        (smul (2 * Real.sin (β - α)) (cross x y)).y * (smul (2 * Real.sin (β - α)) (cross x y)).y) = 2 * Real.sin (β - α) * Real.sin (Real.arcsin x.z) := by
      rw [Real.sin_arcsin hA hx1, ← Real.sqrt_sq (show 0 ≤ 2 * Real.sin (β - α) * x.z by positivity)]
      congr 1
      simp only [smul]
      linear_combination (2 * Real.sin (β - α)) ^ 2 * e1
    have f2 : |(smul (2 * Real.sin (β - α)) (cross x y)).z| = 2 * Real.sin (β - α) * Real.cos (Real.arcsin x.z) := by
      simp only [smul]
      rw [abs_mul, abs_of_pos r0]
      congr 1
      rw [← abs_of_nonneg c0]
      exact (sq_eq_sq_iff_abs_eq_abs _ _).1 e2
    have a1 := Real.arcsin_nonneg.2 x0
    have a2 := Real.arcsin_le_pi_div_two x.z
    rw [f1, f2, h.1 _ _ r0 (by linarith) (by linarith)]

/-- Half the change of latitude that remains for going beyond the ends is enough. -/
theorem delta_ge {A α β eps top : ℝ} {a b : Vec ℝ} {lat : R1.Interval ℝ} (h0 : 0 ≤ A) (h1 : A ≤ 1) (he : 0 ≤ eps) (h2 : α < β) (h3 : β < α + Real.pi)
    (e1 : (Vec.sub _root_.id a b).norm _root_.id Real.sqrt = 2 * Real.sin ((β - α) / 2)) (t1 : Real.arcsin A ≤ top) (t2 : top ≤ Real.pi / 2) :
    1 / 2 * (2 * Real.arcsin (A * Real.sin ((β - α) / 2)) - (lat.hi - lat.lo)) ≤ RectBounder.maxDelta _root_.id Real.sqrt Real.sin Real.arcsin eps a b top lat := by
  have hp := Real.pi_pos
  have s0 : 0 ≤ Real.sin ((β - α) / 2) := Real.sin_nonneg_of_nonneg_of_le_pi (by linarith) (by linarith)
  have s1 := Real.sin_le_one ((β - α) / 2)
  have sA : A ≤ Real.sin top := by
    rw [← Real.sin_arcsin (by linarith) h1]
    exact Real.sin_le_sin_of_le_of_le_pi_div_two (Real.neg_pi_div_two_le_arcsin A) t2 t1
  have st := h0.trans sA
  unfold RectBounder.maxDelta
  simp only [_root_.id, e1, R1.Interval.len]
  have : Real.arcsin (A * Real.sin ((β - α) / 2)) ≤ Real.arcsin (min ((1 + 4 * eps) * (1 / 2 * (2 * Real.sin ((β - α) / 2)) * Real.sin top)) 1) := by
    apply Real.monotone_arcsin
    refine le_min ?_ ?_
    · rw [show (1 + 4 * eps) * (1 / 2 * (2 * Real.sin ((β - α) / 2)) * Real.sin top) = Real.sin ((β - α) / 2) * Real.sin top + 4 * eps * (Real.sin ((β - α) / 2) * Real.sin top) by ring]
      have := mul_le_mul_of_nonneg_right sA s0
      have : 0 ≤ 4 * eps * (Real.sin ((β - α) / 2) * Real.sin top) := by positivity
      linarith
    · nlinarith
  linarith

theorem arcsin_turn (A x : ℝ) : Real.arcsin (A * Real.cos (x + Real.pi)) = -Real.arcsin (A * Real.cos x) := by
  rw [Real.cos_add_pi, mul_neg, Real.arcsin_neg]

set_option maxHeartbeats 1000000 in
/-- The latitudes of an edge, in exact arithmetic. -/
theorem edgeLat_bounds {atan2 : ℝ → ℝ → ℝ} (h : IsArg atan2) {a b : Vec ℝ} (ha : UnitV a) (hb : UnitV b) (hab : ¬ IsZero (cross a b)) {eps : ℝ} (he : 0 ≤ eps)
    {mg : Margins ℝ} (m1 : 0 ≤ mg.rel) (m2 : 0 ≤ mg.abs) {I : R1.Interval ℝ}
    (hI : I = RectBounder.edgeLat Real.pi _root_.id Real.sqrt Real.sin Real.arcsin atan2 eps mg (RectBounder.normal _root_.id a b) a b
      (LatLng.ofPoint _root_.id Real.sqrt atan2 a) (LatLng.ofPoint _root_.id Real.sqrt atan2 b)) :
    -(Real.pi / 2) ≤ I.lo ∧ I.hi ≤ Real.pi / 2 ∧ (∀ p, OnEdge a b p → I.lo ≤ latOf atan2 p ∧ latOf atan2 p ≤ I.hi) ∧
    (eps = 0 → mg.rel = 0 → mg.abs = 0 → (∃ p, OnEdge a b p ∧ latOf atan2 p = I.hi) ∧ ∃ p, OnEdge a b p ∧ latOf atan2 p = I.lo) := by
  have hp := Real.pi_pos
  obtain ⟨x, y, α, β, ux, uy, xy, yz, x0, h2, h3, ea, eb, hpar⟩ := edge_param ha hb hab
  obtain ⟨x1, la, lb, en, ema, emb, ed, emax⟩ := edge_values h ux uy xy yz x0 h2 h3 ea eb
  have sp : 0 < Real.sin (β - α) := Real.sin_pos_of_pos_of_lt_pi (by linarith) (by linarith)
  have hlat : ∀ p θ, p = lin (Real.cos θ) x (Real.sin θ) y → OnEdge a b p → latOf atan2 p = Real.arcsin (x.z * Real.cos θ) := by
    intro p θ e hpe
    rw [latOf_unit h hpe.1, e]
    simp only [lin, yz]
    congr 1; ring
  unfold RectBounder.edgeLat at hI
  dsimp only at hI
  have la' : (LatLng.ofPoint _root_.id Real.sqrt atan2 a).lat = Real.arcsin (x.z * Real.cos α) := la
  have lb' : (LatLng.ofPoint _root_.id Real.sqrt atan2 b).lat = Real.arcsin (x.z * Real.cos β) := lb
  rw [la', lb', emax, en, ema, emb] at hI
  simp only [_root_.id] at hI
  have t1 : Real.arcsin x.z ≤ min (Real.arcsin x.z + 3 * eps) (Real.pi / 2) := le_min (by linarith) (Real.arcsin_le_pi_div_two _)
  have t2 : min (Real.arcsin x.z + 3 * eps) (Real.pi / 2) ≤ Real.pi / 2 := min_le_right _ _
  have t0 := Real.arcsin_nonneg.2 x0
  have D := fun lat => delta_ge (lat := lat) x0 x1 he h2 h3 ed t1 t2
  have chg := lat_change_le x0 x1 h2.le (by linarith)
  -- the range of latitudes of the ends
  have hr : ∃ lo hi, R1.Interval.fromPointPair (Real.arcsin (x.z * Real.cos α)) (Real.arcsin (x.z * Real.cos β)) = ⟨lo, hi⟩ ∧
      lo = min (Real.arcsin (x.z * Real.cos α)) (Real.arcsin (x.z * Real.cos β)) ∧ hi = max (Real.arcsin (x.z * Real.cos α)) (Real.arcsin (x.z * Real.cos β)) := by
    unfold R1.Interval.fromPointPair
    split_ifs with hc
    · exact ⟨_, _, rfl, (min_eq_left hc).symm, (max_eq_right hc).symm⟩
    · exact ⟨_, _, rfl, (min_eq_right (not_le.1 hc).le).symm, (max_eq_left (not_le.1 hc).le).symm⟩
  obtain ⟨lo, hi, er, elo, ehi⟩ := hr
  have D := D ⟨lo, hi⟩
  rw [er] at hI
  dsimp only at D hI
  have hsum : lo + hi = Real.arcsin (x.z * Real.cos α) + Real.arcsin (x.z * Real.cos β) := by rw [elo, ehi, min_add_max]
  have hdif : hi - lo = |Real.arcsin (x.z * Real.cos α) - Real.arcsin (x.z * Real.cos β)| := by rw [elo, ehi, max_sub_min_eq_abs, abs_sub_comm]
  have top : ∀ t, Real.arcsin (x.z * Real.cos t) ≤ Real.arcsin x.z ∧ -Real.arcsin x.z ≤ Real.arcsin (x.z * Real.cos t) := by
    intro t
    have := arcsin_mul_mono x0 (x := t) (y := 0) (by rw [Real.cos_zero]; exact Real.cos_le_one _)
    have k := arcsin_mul_mono x0 (x := Real.pi) (y := t) (by rw [Real.cos_pi]; exact Real.neg_one_le_cos _)
    rw [Real.cos_zero, mul_one] at this
    rw [Real.cos_pi, mul_neg_one, Real.arcsin_neg] at k
    exact ⟨this, k⟩
  have hhi : hi ≤ Real.arcsin x.z := by rw [ehi]; exact max_le (top _).1 (top _).1
  have hlo : -Real.arcsin x.z ≤ lo := by rw [elo]; exact le_min (top _).2 (top _).2
  have hlh : lo ≤ hi := by rw [elo, ehi]; exact min_le_max
  have U : ∀ θ, α ≤ θ → θ ≤ β → Real.arcsin (x.z * Real.cos θ) ≤ hi ∨ (Real.sin α ≤ 0 ∧ 0 ≤ Real.sin β ∧
      Real.arcsin (x.z * Real.cos θ) ≤ hi + 1 / 2 * (2 * Real.arcsin (x.z * Real.sin ((β - α) / 2)) - (hi - lo))) := by
    intro θ k1 k2
    rcases peak_cases x0 x1 h3 k1 k2 with hc | ⟨c1, c2, c3, c4⟩
    · left; rw [ehi]; exact hc
    · right; exact ⟨c1, c2, by linarith⟩
  have L : ∀ θ, α ≤ θ → θ ≤ β → lo ≤ Real.arcsin (x.z * Real.cos θ) ∨ (0 ≤ Real.sin α ∧ Real.sin β ≤ 0 ∧
      lo - 1 / 2 * (2 * Real.arcsin (x.z * Real.sin ((β - α) / 2)) - (hi - lo)) ≤ Real.arcsin (x.z * Real.cos θ)) := by
    intro θ k1 k2
    have := peak_cases x0 x1 (α := α + Real.pi) (β := β + Real.pi) (θ := θ + Real.pi) (by linarith) (by linarith) (by linarith)
    rw [arcsin_turn, arcsin_turn, arcsin_turn, max_neg_neg, Real.sin_add_pi, Real.sin_add_pi, show β + Real.pi - (α + Real.pi) = β - α by ring] at this
    rcases this with hc | ⟨c1, c2, c3, c4⟩
    · left; rw [elo]; linarith
    · right; exact ⟨by linarith, by linarith, by linarith⟩
  have hB : 0 ≤ 1 / 2 * (2 * Real.arcsin (x.z * Real.sin ((β - α) / 2)) - (hi - lo)) := by rw [hdif]; linarith
  have err0 : 0 ≤ mg.rel * (2 * Real.sin (β - α)) + mg.abs := by positivity
  have sgn : ∀ t, (0 ≤ Real.sin t → 0 ≤ 2 * Real.sin (β - α) * (x.z * Real.sin t)) ∧ (Real.sin t ≤ 0 → 2 * Real.sin (β - α) * (x.z * Real.sin t) ≤ 0) := by
    intro t
    constructor
    · intro k; positivity
    · intro k
      exact mul_nonpos_of_nonneg_of_nonpos (by linarith) (mul_nonpos_of_nonneg_of_nonpos x0 k)
  have sgn2 : ∀ t, 0 < x.z → (0 ≤ 2 * Real.sin (β - α) * (x.z * Real.sin t) → 0 ≤ Real.sin t) ∧ (2 * Real.sin (β - α) * (x.z * Real.sin t) ≤ 0 → Real.sin t ≤ 0) := by
    intro t hx
    have hk : 0 < 2 * Real.sin (β - α) * x.z := by positivity
    constructor <;> intro k <;> rw [← mul_assoc] at k
    · exact nonneg_of_mul_nonneg_right k hk
    · exact nonpos_of_mul_nonpos_right k hk
  have zero : mg.rel = 0 → mg.abs = 0 → mg.rel * (2 * Real.sin (β - α)) + mg.abs = 0 := by intro h1 h2; rw [h1, h2]; ring
  generalize mg.rel * (2 * Real.sin (β - α)) + mg.abs = err at *
  have fin : ∀ θ, α ≤ θ → θ ≤ β → OnEdge a b (lin (Real.cos θ) x (Real.sin θ) y) := fun θ k1 k2 => (hpar _).2 ⟨θ, k1, k2, rfl⟩
  have ends : (∃ θ, α ≤ θ ∧ θ ≤ β ∧ Real.arcsin (x.z * Real.cos θ) = hi) ∧ (∃ θ, α ≤ θ ∧ θ ≤ β ∧ Real.arcsin (x.z * Real.cos θ) = lo) := by
    rw [ehi, elo]
    constructor
    · rcases max_choice (Real.arcsin (x.z * Real.cos α)) (Real.arcsin (x.z * Real.cos β)) with e | e <;> rw [e]
      · exact ⟨α, le_rfl, h2.le, rfl⟩
      · exact ⟨β, h2.le, le_rfl, rfl⟩
    · rcases min_choice (Real.arcsin (x.z * Real.cos α)) (Real.arcsin (x.z * Real.cos β)) with e | e <;> rw [e]
      · exact ⟨α, le_rfl, h2.le, rfl⟩
      · exact ⟨β, h2.le, le_rfl, rfl⟩
  generalize hma : 2 * Real.sin (β - α) * (x.z * Real.sin α) = ma at *
  generalize hmb : 2 * Real.sin (β - α) * (x.z * Real.sin β) = mb at *
  generalize hbud : 1 / 2 * (2 * Real.arcsin (x.z * Real.sin ((β - α) / 2)) - (hi - lo)) = bud at *
  generalize hdel : RectBounder.maxDelta _root_.id Real.sqrt Real.sin Real.arcsin eps a b (min (Real.arcsin x.z + 3 * eps) (Real.pi / 2)) ⟨lo, hi⟩ = del at *
  -- the ends of the result
  have ehi' : I.hi = if ma ≤ err ∧ mb ≥ -err ∧ (ma * mb < 0 ∨ |ma| ≤ err ∨ |mb| ≤ err) then min (min (Real.arcsin x.z + 3 * eps) (Real.pi / 2)) (hi + del) else hi := by
    rw [hI]; split_ifs <;> first | rfl | (exfalso; tauto)
  have elo' : I.lo = if mb ≤ err ∧ ma ≥ -err ∧ (ma * mb < 0 ∨ |ma| ≤ err ∨ |mb| ≤ err) then max (-(min (Real.arcsin x.z + 3 * eps) (Real.pi / 2))) (lo - del) else lo := by
    rw [hI]; split_ifs <;> first | rfl | (exfalso; tauto)
  clear hI
  have cond : (ma ≤ 0 ∧ 0 ≤ mb ∨ 0 ≤ ma ∧ mb ≤ 0) → (ma * mb < 0 ∨ |ma| ≤ err ∨ |mb| ≤ err) := by
    intro hc
    by_cases ha0 : ma = 0
    · right; left; rw [ha0, abs_zero]; exact err0
    by_cases hb0 : mb = 0
    · right; right; rw [hb0, abs_zero]; exact err0
    left
    rcases hc with ⟨k1, k2⟩ | ⟨k1, k2⟩
    · exact mul_neg_of_neg_of_pos (lt_of_le_of_ne k1 ha0) (lt_of_le_of_ne k2 (Ne.symm hb0))
    · exact mul_neg_of_pos_of_neg (lt_of_le_of_ne k1 (Ne.symm ha0)) (lt_of_le_of_ne k2 hb0)
  refine ⟨?_, ?_, ?_, ?_⟩
  · rw [elo']
    split_ifs
    · exact (neg_le_neg t2).trans (le_max_left _ _)
    · linarith
  · rw [ehi']
    split_ifs
    · exact (min_le_left _ _).trans t2
    · linarith
  · intro p hpe
    obtain ⟨θ, k1, k2, et⟩ := (hpar p).1 hpe
    rw [hlat p θ et hpe]
    constructor
    · rw [elo']
      split_ifs with hc
      · refine max_le (by linarith [(top θ).2]) ?_
        rcases L θ k1 k2 with k | ⟨_, _, k⟩ <;> linarith
      · rcases L θ k1 k2 with k | ⟨k3, k4, k⟩
        · exact k
        · have q1 := (sgn α).1 k3
          have q2 := (sgn β).2 k4
          rw [hma] at q1; rw [hmb] at q2
          exact absurd ⟨by linarith, by linarith, cond (Or.inr ⟨q1, q2⟩)⟩ hc
    · rw [ehi']
      split_ifs with hc
      · refine le_min (by linarith [(top θ).1]) ?_
        rcases U θ k1 k2 with k | ⟨_, _, k⟩ <;> linarith
      · rcases U θ k1 k2 with k | ⟨k3, k4, k⟩
        · exact k
        · have q1 := (sgn α).2 k3
          have q2 := (sgn β).1 k4
          rw [hma] at q1; rw [hmb] at q2
          exact absurd ⟨by linarith, by linarith, cond (Or.inl ⟨q1, q2⟩)⟩ hc
  · intro z1 z2 z3
    have z := zero z2 z3
    rw [z] at ehi' elo'
    have topz : min (Real.arcsin x.z + 3 * eps) (Real.pi / 2) = Real.arcsin x.z := by
      rw [z1, mul_zero, add_zero]; exact min_eq_left (Real.arcsin_le_pi_div_two _)
    rw [topz] at ehi' elo'
    rcases x0.eq_or_lt with hx | hx
    · -- the equator
      have e0 : Real.arcsin x.z = 0 := by rw [← hx, Real.arcsin_zero]
      have hz : ∀ t, Real.arcsin (x.z * Real.cos t) = 0 := by intro t; rw [← hx, zero_mul, Real.arcsin_zero]
      have hih : hi = 0 := by rw [ehi, hz, hz, max_self]
      have hil : lo = 0 := by rw [elo, hz, hz, min_self]
      have hd : 0 ≤ del := hB.trans D
      refine ⟨⟨_, fin α le_rfl h2.le, ?_⟩, ⟨_, fin α le_rfl h2.le, ?_⟩⟩
      · rw [hlat _ α rfl (fin α le_rfl h2.le), hz, ehi', hih, e0, zero_add, min_eq_left hd]; simp
      · rw [hlat _ α rfl (fin α le_rfl h2.le), hz, elo', hil, e0, neg_zero, zero_sub, max_eq_left (by linarith)]; simp
    constructor
    · rw [ehi']
      split_ifs with hc
      · obtain ⟨θ, k1, k2, k3⟩ := peak_attained h2 h3 ((sgn2 α hx).2 (by rw [hma]; exact hc.1)) ((sgn2 β hx).1 (by rw [hmb]; linarith [hc.2.1]))
        refine ⟨_, fin θ k1 k2, ?_⟩
        rw [hlat _ θ rfl (fin θ k1 k2), k3, mul_one, min_eq_left]
        have := U θ k1 k2
        rw [k3, mul_one] at this
        rcases this with k | ⟨_, _, k⟩ <;> linarith
      · obtain ⟨θ, k1, k2, k3⟩ := ends.1
        exact ⟨_, fin θ k1 k2, by rw [hlat _ θ rfl (fin θ k1 k2), k3]⟩
    · rw [elo']
      split_ifs with hc
      · obtain ⟨θ, k1, k2, k3⟩ := peak_attained (α := α + Real.pi) (β := β + Real.pi) (by linarith) (by linarith)
          (by rw [Real.sin_add_pi]; have := (sgn2 α hx).1 (by rw [hma]; linarith [hc.2.1]); linarith)
          (by rw [Real.sin_add_pi]; have := (sgn2 β hx).2 (by rw [hmb]; exact hc.1); linarith)
        have ek : Real.arcsin (x.z * Real.cos (θ - Real.pi)) = -Real.arcsin x.z := by
          rw [Real.cos_sub_pi, k3, mul_neg_one, Real.arcsin_neg]
        refine ⟨_, fin (θ - Real.pi) (by linarith) (by linarith), ?_⟩
        rw [hlat _ (θ - Real.pi) rfl (fin _ (by linarith) (by linarith)), ek, max_eq_left]
        have := L (θ - Real.pi) (by linarith) (by linarith)
        rw [ek] at this
        rcases this with k | ⟨_, _, k⟩ <;> linarith
      · obtain ⟨θ, k1, k2, k3⟩ := ends.2
        exact ⟨_, fin θ k1 k2, by rw [hlat _ θ rfl (fin θ k1 k2), k3]⟩

end Verif
