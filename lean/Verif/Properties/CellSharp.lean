import Verif.Properties.CellNear
import Verif.Properties.PointCell

/-!
# C109, third part: the constants are the best possible up to a millionth

For every constant there is a leaf cell that reaches it up to a relative error of 1e-6.
-/

namespace Verif
open Spec CellID

/-- A leaf of face 0 by its coordinates. -/
theorem leaf_box {i j : Nat} (hi : i < 1073741824) (hj : j < 1073741824) : ∃ c C, Valid c ∧ Cell.fromCellID (_root_.id : ℝ → ℝ) c = some C ∧ C.level = 30 ∧
    C.uv.x.lo = gUV (2 * (i / 2 ^ 30) - 1) ∧ C.uv.x.hi = gUV (2 * ((i + 1) / 2 ^ 30) - 1) ∧
    C.uv.y.lo = gUV (2 * (j / 2 ^ 30) - 1) ∧ C.uv.y.hi = gUV (2 * ((j + 1) / 2 ^ 30) - 1) := by
  obtain ⟨l, hv, hl, hat⟩ := valid_leaf_exists (f := 0) (by norm_num) hi hj
  obtain ⟨C, hC⟩ := cell_exists hv
  obtain ⟨-, h2, h3, h4⟩ := square_unique hv.square (leaf_square hv hl hat)
  obtain ⟨-, g1, g2⟩ := cell_rect hv hC
  rw [← h2, ← h3, ← h4] at g2
  refine ⟨l, C, hv, hC, by rw [g1, lv_of_level hl], ?_, ?_, ?_, ?_⟩ <;> rw [g2]
  · exact (uvLine_grd _).trans (congrArg gUV (by unfold grd; push_cast; ring))
  · exact (uvLine_grd _).trans (congrArg gUV (by unfold grd; push_cast; ring))
  · exact (uvLine_grd _).trans (congrArg gUV (by unfold grd; push_cast; ring))
  · exact (uvLine_grd _).trans (congrArg gUV (by unfold grd; push_cast; ring))

theorem gUV_pos {s : ℝ} (h : 0 ≤ s) : gUV s = s * (2 + s) / 3 := by unfold gUV; rw [abs_of_nonneg h]; ring

theorem facePt_cross (u v u' v' : ℝ) : dot (cross (facePt u v) (facePt u' v')) (cross (facePt u v) (facePt u' v')) =
    ((u' - u) ^ 2 + (v' - v) ^ 2 + (u * v' - v * u') ^ 2) / ((1 + u ^ 2 + v ^ 2) * (1 + u' ^ 2 + v' ^ 2)) := by
  obtain ⟨r0, r1⟩ := face_r u v
  obtain ⟨q0, q1⟩ := face_r u' v'
  rw [← r1, ← q1]
  unfold facePt
  generalize √(1 + u ^ 2 + v ^ 2) = r at *
  generalize √(1 + u' ^ 2 + v' ^ 2) = q at *
  simp only [dot, cross]
  field_simp
  ring

theorem le_facePt {u v u' v' w : ℝ} (h : w ^ 2 * ((1 + u ^ 2 + v ^ 2) * (1 + u' ^ 2 + v' ^ 2)) ≤ (u' - u) ^ 2 + (v' - v) ^ 2 + (u * v' - v * u') ^ 2) :
    w ≤ ang (facePt u v) (facePt u' v') := by
  refine le_ang_of_cross (facePt_unit _ _) (facePt_unit _ _) ?_
  rw [facePt_cross, le_div_iff₀ (by positivity)]
  exact h

theorem facePt_le {u v u' v' w : ℝ} (hw : 0 ≤ w) (h0 : ang (facePt u v) (facePt u' v') ≤ 1 / 10 ^ 4)
    (h : (u' - u) ^ 2 + (v' - v) ^ 2 + (u * v' - v * u') ^ 2 ≤ ((1 - 1 / 10 ^ 8) * w) ^ 2 * ((1 + u ^ 2 + v ^ 2) * (1 + u' ^ 2 + v' ^ 2))) :
    ang (facePt u v) (facePt u' v') ≤ w := by
  have hp := facePt_unit u v
  have hq := facePt_unit u' v'
  have hc := facePt_cross u v u' v'
  have e : dot (cross (facePt u v) (facePt u' v')) (cross (facePt u v) (facePt u' v')) = Real.sin (ang (facePt u v) (facePt u' v')) ^ 2 := by
    have h1 : dot (cross (facePt u v) (facePt u' v')) (cross (facePt u v) (facePt u' v')) =
        dot (facePt u v) (facePt u v) * dot (facePt u' v') (facePt u' v') - dot (facePt u v) (facePt u' v') ^ 2 := by simp only [dot, cross]; ring
    rw [h1, hp, hq, ← cos_ang hp hq, Real.sin_sq]; ring
  rw [e] at hc
  have n := ang_nonneg (facePt u v) (facePt u' v')
  generalize ang (facePt u v) (facePt u' v') = x at *
  have k : Real.sin x ^ 2 ≤ ((1 - 1 / 10 ^ 8) * w) ^ 2 := by
    rw [hc, div_le_iff₀ (by positivity)]
    exact h
  have s0 := Real.sin_nonneg_of_nonneg_of_le_pi n (by linarith [Real.pi_gt_three])
  have k2 : Real.sin x ≤ (1 - 1 / 10 ^ 8) * w := le_of_sq_le_sq k (by positivity)
  rcases n.eq_or_lt with h1 | h1
  · rw [← h1]; exact hw
  have k3 := Real.sin_gt_sub_cube h1
  have x2 : x ^ 2 ≤ 1 / 10 ^ 8 := by nlinarith
  have k4 : x ^ 3 ≤ x * (1 / 10 ^ 8) := by nlinarith
  nlinarith

theorem leaf_small {c : CellID} {C : Cell ℝ} (hc : Valid c) (hC : Cell.fromCellID _root_.id c = some C) (h30 : C.level = 30) {p q : Vec ℝ}
    (hp : UnitV p) (hq : UnitV q) (h1 : InCell C p) (h2 : InCell C q) : ang p q ≤ 1 / 10 ^ 4 := by
  refine (c109_diameter hc hC hp hq h1 h2).trans ?_
  rw [h30, value_grid rfl]
  show (5491361961389203 / 2 ^ 51 : ℝ) / 2 * (2 * (2 ^ 30)⁻¹) ≤ _
  norm_num

/-- **C109.** `MIN_EDGEMETRIC` and `MAX_EDGEMETRIC` are reached up to a millionth. -/
theorem c109_edge_sharp :
    (∃ (c : CellID) (C : Cell ℝ) (V W : Vec ℝ), Valid c ∧ Cell.fromCellID _root_.id c = some C ∧ C.level = 30 ∧
      C.vertex _root_.id Real.sqrt 2 = some V ∧ C.vertex _root_.id Real.sqrt 3 = some W ∧
      ang V W ≤ (1 + 1 / 10 ^ 6) * (minEdgeMetric _root_.id (√2)).value 30) ∧
    ∃ (c : CellID) (C : Cell ℝ) (V W : Vec ℝ), Valid c ∧ Cell.fromCellID _root_.id c = some C ∧ C.level = 30 ∧
      C.vertex _root_.id Real.sqrt 0 = some V ∧ C.vertex _root_.id Real.sqrt 1 = some W ∧
      (1 - 1 / 10 ^ 6) * maxEdgeMetric.value 30 ≤ ang V W := by
  have sq2 : √2 ^ 2 = 2 := Real.sq_sqrt (by norm_num)
  constructor
  · obtain ⟨c, C, hv, hC, h30, x0, x1, y0, y1⟩ := leaf_box (i := 536870912) (j := 1073741823) (by norm_num) (by norm_num)
    obtain ⟨V, v1, v2, v3⟩ := vertex_inCell hv hC (k := 2) (by norm_num)
    obtain ⟨W, w1, w2, w3⟩ := vertex_inCell hv hC (k := 3) (by norm_num)
    refine ⟨c, C, V, W, hv, hC, h30, v1, w1, ?_⟩
    have G := cell_grid hv hC
    have sm := leaf_small hv hC h30 v3 w3 v2 w2
    rw [ang_loc G.face, (G.vertex (by norm_num) v1).2, (G.vertex (by norm_num) w1).2] at sm ⊢
    refine facePt_le ?_ sm ?_
    · rw [value_grid rfl]
      show 0 ≤ (1 + 1 / 10 ^ 6) * ((2 * √2 / 3) / 2 * (2 * (2 ^ 30)⁻¹) : ℝ)
      positivity
    · rw [value_grid rfl]
      show _ ≤ ((1 - 1 / 10 ^ 8) * ((1 + 1 / 10 ^ 6) * ((2 * √2 / 3) / 2 * (2 * (2 ^ 30)⁻¹) : ℝ))) ^ 2 * _
      rw [show ((1 - 1 / 10 ^ 8) * ((1 + 1 / 10 ^ 6) * ((2 * √2 / 3) / 2 * (2 * (2 ^ 30)⁻¹) : ℝ))) ^ 2 =
        √2 ^ 2 * (((1 - 1 / 10 ^ 8) * ((1 + 1 / 10 ^ 6) * ((2 / 3) / 2 * (2 * (2 ^ 30)⁻¹)))) ^ 2) by ring, sq2]
      simp only [corner]
      rw [x0, x1, y1, gUV_pos (by norm_num), gUV_pos (by norm_num), gUV_pos (by norm_num)]
      norm_num
  · obtain ⟨c, C, hv, hC, h30, x0, x1, y0, y1⟩ := leaf_box (i := 794360000) (j := 536870912) (by norm_num) (by norm_num)
    obtain ⟨V, v1, v2, v3⟩ := vertex_inCell hv hC (k := 0) (by norm_num)
    obtain ⟨W, w1, w2, w3⟩ := vertex_inCell hv hC (k := 1) (by norm_num)
    refine ⟨c, C, V, W, hv, hC, h30, v1, w1, ?_⟩
    have G := cell_grid hv hC
    rw [ang_loc G.face, (G.vertex (by norm_num) v1).2, (G.vertex (by norm_num) w1).2]
    refine le_facePt ?_
    rw [value_grid rfl]
    show ((1 - 1 / 10 ^ 6) * ((3839087150473305 / 2 ^ 51 : ℝ) / 2 * (2 * (2 ^ 30)⁻¹))) ^ 2 * _ ≤ _
    simp only [corner]
    rw [x0, x1, y0, gUV_pos (by norm_num), gUV_pos (by norm_num), gUV_pos (by norm_num)]
    norm_num

/-- **C109.** `MIN_DIAGMETRIC` and `MAX_DIAGMETRIC` are reached up to a millionth. -/
theorem c109_diag_sharp :
    (∃ (c : CellID) (C : Cell ℝ) (V W : Vec ℝ), Valid c ∧ Cell.fromCellID _root_.id c = some C ∧ C.level = 30 ∧
      C.vertex _root_.id Real.sqrt 0 = some V ∧ C.vertex _root_.id Real.sqrt 2 = some W ∧
      ang V W ≤ (1 + 1 / 10 ^ 6) * (minDiagMetric _root_.id (√2)).value 30) ∧
    ∃ (c : CellID) (C : Cell ℝ) (V W : Vec ℝ), Valid c ∧ Cell.fromCellID _root_.id c = some C ∧ C.level = 30 ∧
      C.vertex _root_.id Real.sqrt 1 = some V ∧ C.vertex _root_.id Real.sqrt 3 = some W ∧
      (1 - 1 / 10 ^ 6) * maxDiagMetric.value 30 ≤ ang V W := by
  have sq2 : √2 ^ 2 = 2 := Real.sq_sqrt (by norm_num)
  constructor
  · obtain ⟨c, C, hv, hC, h30, x0, x1, y0, y1⟩ := leaf_box (i := 1073741823) (j := 1073741823) (by norm_num) (by norm_num)
    obtain ⟨V, v1, v2, v3⟩ := vertex_inCell hv hC (k := 0) (by norm_num)
    obtain ⟨W, w1, w2, w3⟩ := vertex_inCell hv hC (k := 2) (by norm_num)
    refine ⟨c, C, V, W, hv, hC, h30, v1, w1, ?_⟩
    have G := cell_grid hv hC
    have sm := leaf_small hv hC h30 v3 w3 v2 w2
    rw [ang_loc G.face, (G.vertex (by norm_num) v1).2, (G.vertex (by norm_num) w1).2] at sm ⊢
    refine facePt_le ?_ sm ?_
    · rw [value_grid rfl]
      show 0 ≤ (1 + 1 / 10 ^ 6) * ((8 * √2 / 9) / 2 * (2 * (2 ^ 30)⁻¹) : ℝ)
      positivity
    · rw [value_grid rfl]
      show _ ≤ ((1 - 1 / 10 ^ 8) * ((1 + 1 / 10 ^ 6) * ((8 * √2 / 9) / 2 * (2 * (2 ^ 30)⁻¹) : ℝ))) ^ 2 * _
      rw [show ((1 - 1 / 10 ^ 8) * ((1 + 1 / 10 ^ 6) * ((8 * √2 / 9) / 2 * (2 * (2 ^ 30)⁻¹) : ℝ))) ^ 2 =
        √2 ^ 2 * (((1 - 1 / 10 ^ 8) * ((1 + 1 / 10 ^ 6) * ((8 / 9) / 2 * (2 * (2 ^ 30)⁻¹)))) ^ 2) by ring, sq2]
      simp only [corner]
      rw [x0, x1, y0, y1, gUV_pos (by norm_num), gUV_pos (by norm_num)]
      norm_num
  · obtain ⟨c, C, hv, hC, h30, x0, x1, y0, y1⟩ := leaf_box (i := 822020000) (j := 822020000) (by norm_num) (by norm_num)
    obtain ⟨V, v1, v2, v3⟩ := vertex_inCell hv hC (k := 1) (by norm_num)
    obtain ⟨W, w1, w2, w3⟩ := vertex_inCell hv hC (k := 3) (by norm_num)
    refine ⟨c, C, V, W, hv, hC, h30, v1, w1, ?_⟩
    have G := cell_grid hv hC
    rw [ang_loc G.face, (G.vertex (by norm_num) v1).2, (G.vertex (by norm_num) w1).2]
    refine le_facePt ?_
    rw [value_grid rfl]
    show ((1 - 1 / 10 ^ 6) * ((5491361961389203 / 2 ^ 51 : ℝ) / 2 * (2 * (2 ^ 30)⁻¹))) ^ 2 * _ ≤ _
    simp only [corner]
    rw [x0, x1, y0, y1, gUV_pos (by norm_num), gUV_pos (by norm_num)]
    norm_num

/-- **C109.** `MIN_ANGLE_SPANMETRIC` and `MAX_ANGLE_SPANMETRIC` are reached up to a millionth. -/
theorem c109_span_sharp :
    (∃ (c : CellID) (C : Cell ℝ) (E F : Vec ℝ), Valid c ∧ Cell.fromCellID _root_.id c = some C ∧ C.level = 30 ∧
      C.edge _root_.id Real.sqrt 1 = some E ∧ C.edge _root_.id Real.sqrt 3 = some F ∧
      ang E (smul (-1) F) ≤ (1 + 1 / 10 ^ 6) * (minAngleSpanMetric _root_.id).value 30) ∧
    ∃ (c : CellID) (C : Cell ℝ) (E F : Vec ℝ), Valid c ∧ Cell.fromCellID _root_.id c = some C ∧ C.level = 30 ∧
      C.edge _root_.id Real.sqrt 1 = some E ∧ C.edge _root_.id Real.sqrt 3 = some F ∧
      (1 - 1 / 10 ^ 6) * maxAngleSpanMetric.value 30 ≤ ang E (smul (-1) F) := by
  have key : ∀ a b : ℝ, Real.arctan b - Real.arctan a = ang (facePt a 0) (facePt b 0) ∨ b < a := by
    intro a b
    rcases lt_or_ge b a with h | h
    · exact Or.inr h
    · left
      have h3 : 0 ≤ Real.arctan b - Real.arctan a := sub_nonneg.2 (Real.arctan_strictMono.monotone h)
      have e : dot (facePt a 0) (facePt b 0) = Real.cos (Real.arctan b - Real.arctan a) := by
        rw [Real.cos_sub, Real.cos_arctan, Real.cos_arctan, Real.sin_arctan, Real.sin_arctan]
        simp only [dot, facePt]
        rw [show 1 + a ^ 2 + (0 : ℝ) ^ 2 = 1 + a ^ 2 by ring, show 1 + b ^ 2 + (0 : ℝ) ^ 2 = 1 + b ^ 2 by ring]
        ring
      unfold ang
      rw [e, Real.arccos_cos h3]
      have := Real.arctan_lt_pi_div_two b
      have := Real.neg_pi_div_two_lt_arctan a
      linarith
  have spn : ∀ {c : CellID} {C : Cell ℝ} (hc : Valid c) (hC : Cell.fromCellID _root_.id c = some C), ∃ E F, C.edge _root_.id Real.sqrt 1 = some E ∧ C.edge _root_.id Real.sqrt 3 = some F ∧
      ang E (smul (-1) F) = ang (facePt C.uv.x.lo 0) (facePt C.uv.x.hi 0) := by
    intro c C hc hC
    obtain ⟨E, -, -, -, hE, -⟩ := c75_edge isSqrt_real hc hC (k := 1) (by norm_num)
    obtain ⟨F, -, -, -, hF, -⟩ := c75_edge isSqrt_real hc hC (k := 3) (by norm_num)
    refine ⟨E, F, hE, hF, ?_⟩
    rw [span_eq hc hC (k := 1) (by norm_num) hE hF]
    obtain ⟨-, hx, -⟩ := cell_parts hc hC
    exact (key C.uv.x.lo C.uv.x.hi).resolve_right (not_lt.2 hx.le)
  constructor
  · obtain ⟨c, C, hv, hC, h30, x0, x1, y0, y1⟩ := leaf_box (i := 536870912) (j := 0) (by norm_num) (by norm_num)
    obtain ⟨E, F, hE, hF, e⟩ := spn hv hC
    refine ⟨c, C, E, F, hv, hC, h30, hE, hF, ?_⟩
    have G := cell_grid hv hC
    have sm := (c109_span hv hC (k := 1) (by norm_num) hE hF).2
    rw [e, h30] at sm
    rw [e]
    refine facePt_le ?_ (sm.trans ?_) ?_
    · rw [value_grid rfl]
      show 0 ≤ (1 + 1 / 10 ^ 6) * ((4 / 3) / 2 * (2 * (2 ^ 30)⁻¹) : ℝ)
      positivity
    · rw [value_grid rfl]
      show (3839087150473305 / 2 ^ 51 : ℝ) / 2 * (2 * (2 ^ 30)⁻¹) ≤ _
      norm_num
    · rw [value_grid rfl]
      show _ ≤ ((1 - 1 / 10 ^ 8) * ((1 + 1 / 10 ^ 6) * ((4 / 3) / 2 * (2 * (2 ^ 30)⁻¹) : ℝ))) ^ 2 * _
      rw [x0, x1, gUV_pos (by norm_num), gUV_pos (by norm_num)]
      norm_num
  · obtain ⟨c, C, hv, hC, h30, x0, x1, y0, y1⟩ := leaf_box (i := 794360000) (j := 0) (by norm_num) (by norm_num)
    obtain ⟨E, F, hE, hF, e⟩ := spn hv hC
    refine ⟨c, C, E, F, hv, hC, h30, hE, hF, ?_⟩
    rw [e]
    refine le_facePt ?_
    rw [value_grid rfl]
    show ((1 - 1 / 10 ^ 6) * ((3839087150473305 / 2 ^ 51 : ℝ) / 2 * (2 * (2 ^ 30)⁻¹))) ^ 2 * _ ≤ _
    rw [x0, x1, gUV_pos (by norm_num), gUV_pos (by norm_num)]
    norm_num

/-- **C109.** `MIN_WIDTHMETRIC` and `MAX_WIDTHMETRIC` are reached up to a millionth. -/
theorem c109_width_sharp :
    (∃ (c : CellID) (C : Cell ℝ) (p q : Vec ℝ), Valid c ∧ Cell.fromCellID _root_.id c = some C ∧ C.level = 30 ∧
      UnitV p ∧ UnitV q ∧ OnSide C 3 p ∧ OnSide C 1 q ∧ ang p q ≤ (1 + 1 / 10 ^ 6) * (minWidthMetric _root_.id (√2)).value 30) ∧
    ∃ (c : CellID) (C : Cell ℝ) (p : Vec ℝ), Valid c ∧ Cell.fromCellID _root_.id c = some C ∧ C.level = 30 ∧ UnitV p ∧ OnSide C 3 p ∧
      ∀ q, UnitV q → OnSide C 1 q → (1 - 1 / 10 ^ 6) * maxWidthMetric.value 30 ≤ ang p q := by
  have sq2 : √2 ^ 2 = 2 := Real.sq_sqrt (by norm_num)
  constructor
  · obtain ⟨c, C, hv, hC, h30, x0, x1, y0, y1⟩ := leaf_box (i := 536870912) (j := 1073741823) (by norm_num) (by norm_num)
    have G := cell_grid hv hC
    obtain ⟨-, hx, hy⟩ := cell_parts hv hC
    obtain ⟨E, -, -, -, hE, -⟩ := c75_edge isSqrt_real hv hC (k := 3) (by norm_num)
    obtain ⟨F, -, -, -, hF, -⟩ := c75_edge isSqrt_real hv hC (k := 1) (by norm_num)
    obtain ⟨p, p1, p2, p3⟩ := G.mk_side (k := 3) (by norm_num) (u := C.uv.x.lo) (v := C.uv.y.hi) ⟨⟨le_rfl, hx.le⟩, hy.le, le_rfl⟩ (by simp) ⟨E, hE⟩
    obtain ⟨q, q1, q2, q3⟩ := G.mk_side (k := 1) (by norm_num) (u := C.uv.x.hi) (v := C.uv.y.hi) ⟨⟨hx.le, le_rfl⟩, hy.le, le_rfl⟩ (by simp) ⟨F, hF⟩
    refine ⟨c, C, p, q, hv, hC, h30, p1, q1, p2, q2, ?_⟩
    have sm := leaf_small hv hC h30 p1 q1 p2.1 q2.1
    rw [ang_loc G.face, p3, q3] at sm ⊢
    refine facePt_le ?_ sm ?_
    · rw [value_grid rfl]
      show 0 ≤ (1 + 1 / 10 ^ 6) * ((2 * √2 / 3) / 2 * (2 * (2 ^ 30)⁻¹) : ℝ)
      positivity
    · rw [value_grid rfl]
      show _ ≤ ((1 - 1 / 10 ^ 8) * ((1 + 1 / 10 ^ 6) * ((2 * √2 / 3) / 2 * (2 * (2 ^ 30)⁻¹) : ℝ))) ^ 2 * _
      rw [show ((1 - 1 / 10 ^ 8) * ((1 + 1 / 10 ^ 6) * ((2 * √2 / 3) / 2 * (2 * (2 ^ 30)⁻¹) : ℝ))) ^ 2 =
        √2 ^ 2 * (((1 - 1 / 10 ^ 8) * ((1 + 1 / 10 ^ 6) * ((2 / 3) / 2 * (2 * (2 ^ 30)⁻¹)))) ^ 2) by ring, sq2]
      rw [x0, x1, y1, gUV_pos (by norm_num), gUV_pos (by norm_num), gUV_pos (by norm_num)]
      norm_num
  · obtain ⟨c, C, hv, hC, h30, x0, x1, y0, y1⟩ := leaf_box (i := 794360000) (j := 536870912) (by norm_num) (by norm_num)
    have G := cell_grid hv hC
    obtain ⟨-, hx, hy⟩ := cell_parts hv hC
    obtain ⟨E, -, -, -, hE, -⟩ := c75_edge isSqrt_real hv hC (k := 3) (by norm_num)
    obtain ⟨p, p1, p2, p3⟩ := G.mk_side (k := 3) (by norm_num) (u := C.uv.x.lo) (v := C.uv.y.lo) ⟨⟨le_rfl, hx.le⟩, le_rfl, hy.le⟩ (by simp) ⟨E, hE⟩
    refine ⟨c, C, p, hv, hC, h30, p1, p2, fun q q1 q2 => ?_⟩
    obtain ⟨u, v, e, ⟨⟨-, -⟩, h3, h4⟩, -, hv1, -, i1, -⟩ := G.side (k := 1) (by norm_num) q1 q2
    dsimp only at h3 h4
    rw [ang_loc G.face, p3, e, i1 rfl]
    refine le_facePt ?_
    rw [value_grid rfl]
    show ((1 - 1 / 10 ^ 6) * ((3839087150473305 / 2 ^ 51 : ℝ) / 2 * (2 * (2 ^ 30)⁻¹))) ^ 2 * _ ≤ _
    have z : C.uv.y.lo = 0 := by rw [y0, show (2 * (((536870912 : Nat) : ℝ) / 2 ^ 30) - 1 : ℝ) = 0 by norm_num, gUV_zero]
    have z1 : C.uv.y.hi ≤ 1 / 10 ^ 8 := by rw [y1, gUV_pos (by norm_num)]; norm_num
    rw [z] at h3 ⊢
    have vv : v ^ 2 ≤ 1 / 10 ^ 16 := by nlinarith
    have sv := sq_nonneg v
    rw [x0, x1, gUV_pos (by norm_num), gUV_pos (by norm_num)]
    norm_num at vv ⊢
    nlinarith

/-- The doubles of the maximal constants are the nearest to their literals: within half a unit of the last place. -/
theorem c109_literals : |(maxAngleSpanMetric : S2.Metric ℝ).deriv - 17048971791992185 / 10 ^ 16| ≤ 1 / 2 ^ 53 ∧
    |(maxDiagMetric : S2.Metric ℝ).deriv - 2438654594434021 / 10 ^ 15| ≤ 1 / 2 ^ 52 := by
  constructor
  · show |(3839087150473305 / 2 ^ 51 : ℝ) - 17048971791992185 / 10 ^ 16| ≤ 1 / 2 ^ 53
    rw [abs_le]; norm_num
  · show |(5491361961389203 / 2 ^ 51 : ℝ) - 2438654594434021 / 10 ^ 15| ≤ 1 / 2 ^ 52
    rw [abs_le]; norm_num

/-- The hypotheses of the theorems of C109 hold of a cell of level 10: its edges, vertices, sides, centre and neighbours. -/
example : ∃ C E F V W Z, Cell.fromCellID (_root_.id : ℝ → ℝ) ⟨0x6060730000000000#64⟩ = some C ∧ C.level = 10 ∧
    C.edge _root_.id Real.sqrt 1 = some E ∧ C.edge _root_.id Real.sqrt 3 = some F ∧
    C.vertex _root_.id Real.sqrt 1 = some V ∧ C.vertex _root_.id Real.sqrt 3 = some W ∧
    OnSide C 1 V ∧ OnSide C 3 W ∧ C.center _root_.id Real.sqrt = some Z ∧
    (minWidthMetric _root_.id (√2)).value 10 ≤ ang V W ∧ ang V W ≤ maxDiagMetric.value 10 ∧ ang V Z ≤ maxDiagMetric.value 10 / 2 := by
  have h := (c68_from (_root_.id : ℝ → ℝ) exCell.1 exCell.2.1 exCell.1.square exCell.1.faceIJ).1
  obtain ⟨E, V, W', t, h1, h2, h3, h4, t0, h5, -⟩ := c75_edge isSqrt_real exCell.1 h (k := 1) (by norm_num)
  obtain ⟨F, W, V', s, g1, g2, g3, g4, s0, g5, -⟩ := c75_edge isSqrt_real exCell.1 h (k := 3) (by norm_num)
  obtain ⟨V1, v1, v2, v3⟩ := vertex_inCell exCell.1 h (k := 1) (by norm_num)
  obtain ⟨W1, w1, w2, w3⟩ := vertex_inCell exCell.1 h (k := 3) (by norm_num)
  rw [h2] at v1
  obtain rfl := Option.some.inj v1
  rw [g2] at w1
  obtain rfl := Option.some.inj w1
  have perp : ∀ (A B N : Vec ℝ) (r : ℝ), 0 < r → cross A B = smul r N → dot N A = 0 := by
    intro A B N r hr e
    have : r * dot N A = 0 := by
      have : r * dot N A = dot (smul r N) A := by simp only [dot, smul]; ring
      rw [this, ← e]; simp only [dot, cross]; ring
    exact (mul_eq_zero.1 this).resolve_left hr.ne'
  have o1 : OnSide _ 1 V := ⟨v2, E, h1, perp V W' E t t0 h5⟩
  have o3 : OnSide _ 3 W := ⟨w2, F, g1, perp W V' F s s0 g5⟩
  obtain ⟨Z, z1, -, z3⟩ := c109_center exCell.1 h v3 v2
  exact ⟨_, E, F, V, W, Z, h, rfl, h1, g1, h2, g2, o1, o3, z1, c109_width exCell.1 h (k := 1) (by norm_num) v3 w3 o1 o3,
    (c109_diag exCell.1 h (k := 1) (by norm_num) h2 g2).2, z3⟩

-- the neighbours and the successor of the same cell
example : (∃ xs P, (CellID.mk 0x6060730000000000#64).edgeNeighbors _root_.id = some xs ∧ (CellID.mk 0x6060730000000000#64).toPoint (_root_.id : ℝ → ℝ) Real.sqrt = some P ∧
      ∀ d ∈ xs, ∃ Q, d.toPoint (_root_.id : ℝ → ℝ) Real.sqrt = some Q ∧ ang P Q ≤ maxEdgeMetric.value 10) ∧
    ∃ d P Q, (CellID.mk 0x6060730000000000#64).nextWrap = some d ∧ (CellID.mk 0x6060730000000000#64).toPoint (_root_.id : ℝ → ℝ) Real.sqrt = some P ∧
      d.toPoint (_root_.id : ℝ → ℝ) Real.sqrt = some Q ∧ ang P Q ≤ maxEdgeMetric.value 10 := by
  refine ⟨c109_neighbors rounding_id exCell.1 exCell.2.1, ?_⟩
  obtain ⟨e, -⟩ := nextWrap_valid exCell.1
  obtain ⟨P, Q, h⟩ := c109_next exCell.1 exCell.2.1 e
  exact ⟨_, P, Q, e, h⟩

-- a diameter of one tenth
example : ∃ L, maxDiagMetric.minLevel _root_.id (1 / 10 : ℝ) = some L := by
  obtain ⟨L, h, -⟩ := c109_minLevel (x := 1 / 10) (by
    rw [value_grid rfl]
    show (5491361961389203 / 2 ^ 51 : ℝ) / 2 * (2 * (2 ^ 30)⁻¹) ≤ _
    norm_num)
  exact ⟨L, h⟩

end Verif
