import Verif.Model.MetricConst
import Verif.Proofs.CellGrid
import Verif.Properties.Metric
import Verif.Properties.Neighbors

/-!
# C109: the sizes of cells are between the constants of `metric.rs`

Exact arithmetic over the reals. The minimal constants are the exact values of their expressions, the maximal ones the doubles of the program.
-/

namespace Verif
open Spec CellID

namespace Spec

/-- The points of side `k` of the cell: the points of the cell on the great circle of `edge(k)`. -/
def OnSide (C : Cell ℝ) (k : Nat) (p : Vec ℝ) : Prop := InCell C p ∧ ∃ E, C.edge _root_.id Real.sqrt k = some E ∧ dot E p = 0

end Spec

/-- The values at the level of a cell, in terms of its size on the grid. -/
theorem value_grid {m : S2.Metric ℝ} (h : m.dim = 1) (l : Nat) : m.value l = m.deriv / 2 * (2 * (2 ^ l)⁻¹) := by
  rw [S2.Metric.value_eq, h, Nat.cast_one, one_mul, zpow_natCast]
  ring

section
variable {C : Cell ℝ} {s t d : ℝ} (G : OnGrid C s t d)
include G

theorem OnGrid.value {m : S2.Metric ℝ} (h : m.dim = 1) : m.value C.level = m.deriv / 2 * d := by rw [value_grid h, G.size]

theorem OnGrid.abs_s : |s| ≤ 1 ∧ |s + d| ≤ 1 ∧ |t| ≤ 1 ∧ |t + d| ≤ 1 := by
  have := G.pos; have := G.s0; have := G.s1; have := G.t0; have := G.t1
  refine ⟨abs_le.2 ⟨?_, ?_⟩, abs_le.2 ⟨?_, ?_⟩, abs_le.2 ⟨?_, ?_⟩, abs_le.2 ⟨?_, ?_⟩⟩ <;> linarith

theorem OnGrid.width_x {v v' : ℝ} (hv : |v| ≤ 1) (hv' : |v'| ≤ 1) : √2 / 3 * d ≤ ang (facePt C.uv.x.lo v) (facePt C.uv.x.hi v') := by
  rw [G.xlo, G.xhi]
  rcases G.quarter with ⟨h, -⟩ | ⟨h1, h2, -⟩
  · exact face_width_ge G.s0 G.pos h G.s1 hv
  · rw [h1, h2, show (-1 : ℝ) + 2 = 1 by norm_num]
    exact face_width_face hv hv'

theorem OnGrid.width_y {v v' : ℝ} (hv : |v| ≤ 1) (hv' : |v'| ≤ 1) : √2 / 3 * d ≤ ang (facePt v C.uv.y.lo) (facePt v' C.uv.y.hi) := by
  rw [facePt_swap, G.ylo, G.yhi]
  rcases G.quarter with ⟨h, -⟩ | ⟨h1, -, h2⟩
  · exact face_width_ge G.t0 G.pos h G.t1 hv
  · rw [h1, h2, show (-1 : ℝ) + 2 = 1 by norm_num]
    exact face_width_face hv hv'

theorem OnGrid.line_x (v : ℝ) : ang (facePt C.uv.x.lo v) (facePt C.uv.x.hi v) ≤ 3839087150473305 / 2 ^ 51 / 2 * d := by
  obtain ⟨h1, h2, -⟩ := G.abs_s
  have := face_line_le v h1 h2
  rwa [add_sub_cancel_left, abs_of_pos G.pos, ← G.xlo, ← G.xhi] at this

theorem OnGrid.line_y (v : ℝ) : ang (facePt v C.uv.y.lo) (facePt v C.uv.y.hi) ≤ 3839087150473305 / 2 ^ 51 / 2 * d := by
  obtain ⟨-, -, h1, h2⟩ := G.abs_s
  have := face_line_le v h1 h2
  rw [facePt_swap]
  rwa [add_sub_cancel_left, abs_of_pos G.pos, ← G.ylo, ← G.yhi] at this

theorem OnGrid.bounds : |C.uv.x.lo| ≤ 1 ∧ |C.uv.x.hi| ≤ 1 ∧ |C.uv.y.lo| ≤ 1 ∧ |C.uv.y.hi| ≤ 1 := by
  obtain ⟨h1, h2, h3, h4⟩ := G.abs_s
  rw [G.xlo, G.xhi, G.ylo, G.yhi]
  exact ⟨(gUV_le h1).trans h1, (gUV_le h2).trans h2, (gUV_le h3).trans h3, (gUV_le h4).trans h4⟩

/-- The points of the sides. -/
theorem OnGrid.side {k : Nat} (hk : k < 4) {p : Vec ℝ} (hp : UnitV p) (h : OnSide C k p) :
    ∃ u v, loc C.face p = facePt u v ∧ R2.InRect C.uv ⟨u, v⟩ ∧ |u| ≤ 1 ∧ |v| ≤ 1 ∧
      (k = 0 → v = C.uv.y.lo) ∧ (k = 1 → u = C.uv.x.hi) ∧ (k = 2 → v = C.uv.y.hi) ∧ (k = 3 → u = C.uv.x.lo) := by
  obtain ⟨⟨u, v, w, r, hr, hw, r0, rfl⟩, E, hE, h0⟩ := h
  obtain ⟨-, q, q0, e⟩ := edge_loc G.face hk hE
  obtain ⟨b1, b2, b3, b4⟩ := G.bounds
  have hr' := hr
  obtain ⟨⟨h1, h2⟩, h3, h4⟩ := hr'
  dsimp only at h1 h2 h3 h4
  rw [abs_le] at b1 b2 b3 b4
  refine ⟨u, v, loc_facePt G.face hw r0 hp, hr, abs_le.2 ⟨by linarith, by linarith⟩, abs_le.2 ⟨by linarith, by linarith⟩, ?_⟩
  rw [← loc_dot G.face, e, loc_smul G.face hw] at h0
  have qr : q * r ≠ 0 := (mul_pos q0 r0).ne'
  refine ⟨?_, ?_, ?_, ?_⟩ <;> rintro rfl <;> simp only [edgeDir, dot, smul] at h0 <;> refine mul_left_cancel₀ qr ?_ <;> linarith

/-- Points of the sides. -/
theorem OnGrid.mk_side {k : Nat} (hk : k < 4) {u v : ℝ} (hr : R2.InRect C.uv ⟨u, v⟩)
    (h : k = 0 ∧ v = C.uv.y.lo ∨ k = 1 ∧ u = C.uv.x.hi ∨ k = 2 ∧ v = C.uv.y.hi ∨ k = 3 ∧ u = C.uv.x.lo)
    (hE : ∃ E, C.edge _root_.id Real.sqrt k = some E) : ∃ p, UnitV p ∧ OnSide C k p ∧ loc C.face p = facePt u v := by
  obtain ⟨w, r, hw, r0, hu, e⟩ := exists_facePt G.face u v
  obtain ⟨E, hE⟩ := hE
  refine ⟨_, hu, ⟨⟨u, v, w, r, hr, hw, r0, rfl⟩, E, hE, ?_⟩, e⟩
  obtain ⟨-, q, -, e'⟩ := edge_loc G.face hk hE
  rw [← loc_dot G.face, e', loc_smul G.face hw]
  rcases h with ⟨rfl, h⟩ | ⟨rfl, h⟩ | ⟨rfl, h⟩ | ⟨rfl, h⟩ <;> simp only [edgeDir, dot, smul] <;> rw [h] <;> ring

end

section
variable {c : CellID} {C : Cell ℝ} (hc : Valid c) (hC : Cell.fromCellID _root_.id c = some C)
include hc hC

/-- The angle between the great circles of opposite edges. -/
theorem span_eq {k : Nat} (hk : k < 4) {E F : Vec ℝ} (hE : C.edge _root_.id Real.sqrt k = some E)
    (hF : C.edge _root_.id Real.sqrt ((k + 2) % 4) = some F) :
    ang E (smul (-1) F) = if k % 2 = 0 then Real.arctan C.uv.y.hi - Real.arctan C.uv.y.lo else Real.arctan C.uv.x.hi - Real.arctan C.uv.x.lo := by
  have G := cell_grid hc hC
  obtain ⟨uE, q, q0, eE⟩ := edge_loc G.face hk hE
  obtain ⟨uF, r, r0, eF⟩ := edge_loc G.face (Nat.mod_lt _ (by norm_num)) hF
  have nE : dot (edgeDir C.uv k) (edgeDir C.uv k) * q ^ 2 = 1 := by
    have := loc_dot G.face E E
    rw [eE, uE] at this
    rw [← this]; simp only [dot, smul]; ring
  have nF : dot (edgeDir C.uv ((k + 2) % 4)) (edgeDir C.uv ((k + 2) % 4)) * r ^ 2 = 1 := by
    have := loc_dot G.face F F
    rw [eF, uF] at this
    rw [← this]; simp only [dot, smul]; ring
  have key : ∀ a b : ℝ, a ≤ b → dot (edgeDir C.uv k) (edgeDir C.uv k) * (dot (edgeDir C.uv ((k + 2) % 4)) (edgeDir C.uv ((k + 2) % 4))) = (1 + a ^ 2) * (1 + b ^ 2) →
      dot (edgeDir C.uv k) (edgeDir C.uv ((k + 2) % 4)) = -(1 + a * b) →
      ang E (smul (-1) F) = Real.arctan b - Real.arctan a := by
    intro a b hab h1 h2
    have h3 : 0 ≤ Real.arctan b - Real.arctan a := sub_nonneg.2 (Real.arctan_strictMono.monotone hab)
    unfold ang
    have e : dot E (smul (-1) F) = q * r * (1 + a * b) := by
      have : dot E (smul (-1) F) = -dot E F := by simp only [dot, smul]; ring
      rw [this, ← loc_dot G.face, eE, eF]
      have : dot (smul q (edgeDir C.uv k)) (smul r (edgeDir C.uv ((k + 2) % 4))) = q * r * dot (edgeDir C.uv k) (edgeDir C.uv ((k + 2) % 4)) := by
        simp only [dot, smul]; ring
      rw [this, h2]; ring
    have n : (q * r) ^ 2 * ((1 + a ^ 2) * (1 + b ^ 2)) = 1 := by
      rw [← h1]
      calc _ = (dot (edgeDir C.uv k) (edgeDir C.uv k) * q ^ 2) * (dot (edgeDir C.uv ((k + 2) % 4)) (edgeDir C.uv ((k + 2) % 4)) * r ^ 2) := by ring
        _ = 1 := by rw [nE, nF]; norm_num
    have ca : Real.cos (Real.arctan b - Real.arctan a) = q * r * (1 + a * b) := by
      rw [Real.cos_sub, Real.cos_arctan, Real.cos_arctan, Real.sin_arctan, Real.sin_arctan]
      have sa : √(1 + a ^ 2) ^ 2 = 1 + a ^ 2 := Real.sq_sqrt (by positivity)
      have sb : √(1 + b ^ 2) ^ 2 = 1 + b ^ 2 := Real.sq_sqrt (by positivity)
      have pa : 0 < √(1 + a ^ 2) := Real.sqrt_pos.2 (by positivity)
      have pb : 0 < √(1 + b ^ 2) := Real.sqrt_pos.2 (by positivity)
      have m : q * r * (√(1 + a ^ 2) * √(1 + b ^ 2)) = 1 := by
        refine (pow_eq_one_iff_of_nonneg (by positivity) two_ne_zero).1 ?_
        rw [mul_pow, mul_pow √(1 + a ^ 2), sa, sb]; exact n
      rw [show q * r * (1 + a * b) = 1 / (√(1 + a ^ 2) * √(1 + b ^ 2)) * (1 + a * b) by rw [eq_div_of_mul_eq (by positivity) m]]
      field_simp
    rw [e, ← ca, Real.arccos_cos h3]
    have := Real.arctan_lt_pi_div_two b
    have := Real.neg_pi_div_two_lt_arctan a
    linarith
  obtain ⟨-, hx, hy⟩ := cell_parts hc hC
  interval_cases k
  · rw [key _ _ hy.le (by simp only [edgeDir, dot]; ring) (by simp only [edgeDir, dot]; ring)]; rfl
  · rw [key _ _ hx.le (by simp only [edgeDir, dot]; ring) (by simp only [edgeDir, dot]; ring)]; rfl
  · rw [key _ _ hy.le (by simp only [edgeDir, dot]; ring) (by simp only [edgeDir, dot]; ring)]; rfl
  · rw [key _ _ hx.le (by simp only [edgeDir, dot]; ring) (by simp only [edgeDir, dot]; ring)]; rfl

/-- **C109.** The angle between the great circles of opposite edges is between `MIN_ANGLE_SPANMETRIC` and `MAX_ANGLE_SPANMETRIC` for the level of the cell. -/
theorem c109_span {k : Nat} (hk : k < 4) {E F : Vec ℝ} (hE : C.edge _root_.id Real.sqrt k = some E)
    (hF : C.edge _root_.id Real.sqrt ((k + 2) % 4) = some F) :
    (minAngleSpanMetric _root_.id).value C.level ≤ ang E (smul (-1) F) ∧ ang E (smul (-1) F) ≤ maxAngleSpanMetric.value C.level := by
  have G := cell_grid hc hC
  have hd := G.pos
  have X := span_bounds G.s0 (by linarith) G.s1
  have Y := span_bounds G.t0 (by linarith) G.t1
  rw [add_sub_cancel_left] at X Y
  rw [← G.xlo, ← G.xhi] at X
  rw [← G.ylo, ← G.yhi] at Y
  have c1 : (minAngleSpanMetric (_root_.id : ℝ → ℝ)).deriv / 2 = 2 / 3 := by
    show (4 / 3 : ℝ) / 2 = 2 / 3
    norm_num
  rw [G.value rfl, G.value rfl, c1, span_eq hc hC hk hE hF]
  split_ifs
  · exact Y
  · exact X

/-- **C109.** Consecutive vertices are at least `MIN_EDGEMETRIC` and at most `MAX_EDGEMETRIC` for the level of the cell apart. -/
theorem c109_edge {k : Nat} (hk : k < 4) {V W : Vec ℝ} (hV : C.vertex _root_.id Real.sqrt k = some V)
    (hW : C.vertex _root_.id Real.sqrt ((k + 1) % 4) = some W) :
    (minEdgeMetric _root_.id (√2)).value C.level ≤ ang V W ∧ ang V W ≤ maxEdgeMetric.value C.level := by
  have G := cell_grid hc hC
  rw [G.value rfl, G.value rfl, ang_loc G.face, (G.vertex hk hV).2, (G.vertex (Nat.mod_lt _ (by norm_num)) hW).2]
  obtain ⟨b1, b2, b3, b4⟩ := G.bounds
  have c1 : (minEdgeMetric (_root_.id : ℝ → ℝ) (√2)).deriv / 2 = √2 / 3 := by
    show (2 * √2 / 3 : ℝ) / 2 = √2 / 3
    ring
  rw [c1]
  interval_cases k
  · exact ⟨G.width_x b3 b3, G.line_x _⟩
  · exact ⟨G.width_y b2 b2, G.line_y _⟩
  · rw [ang_comm]
    exact ⟨G.width_x b4 b4, G.line_x _⟩
  · rw [ang_comm]
    exact ⟨G.width_y b1 b1, G.line_y _⟩

/-- **C109.** Points of opposite sides are at least `MIN_WIDTHMETRIC` for the level of the cell apart. -/
theorem c109_width {k : Nat} (hk : k < 4) {p q : Vec ℝ} (hp : UnitV p) (hq : UnitV q) (h1 : OnSide C k p) (h2 : OnSide C ((k + 2) % 4) q) :
    (minWidthMetric _root_.id (√2)).value C.level ≤ ang p q := by
  have G := cell_grid hc hC
  obtain ⟨u, v, e, -, hu, hv, i0, i1, i2, i3⟩ := G.side hk hp h1
  obtain ⟨u', v', e', -, hu', hv', j0, j1, j2, j3⟩ := G.side (Nat.mod_lt _ (by norm_num)) hq h2
  have c1 : (minWidthMetric (_root_.id : ℝ → ℝ) (√2)).deriv / 2 = √2 / 3 := by
    show (2 * √2 / 3 : ℝ) / 2 = √2 / 3
    ring
  rw [G.value rfl, c1, ang_loc G.face, e, e']
  interval_cases k
  · rw [i0 rfl, j2 rfl]
    exact G.width_y hu hu'
  · rw [i1 rfl, j3 rfl, ang_comm]
    exact G.width_x hv' hv
  · rw [i2 rfl, j0 rfl, ang_comm]
    exact G.width_y hu' hu
  · rw [i3 rfl, j1 rfl]
    exact G.width_x hv hv'

/-- **C109.** Every point of a side is within `MAX_WIDTHMETRIC` for the level of the cell of a point of the opposite side. -/
theorem c109_width_max {k : Nat} (hk : k < 4) {p : Vec ℝ} (hp : UnitV p) (h : OnSide C k p) :
    ∃ q, UnitV q ∧ OnSide C ((k + 2) % 4) q ∧ ang p q ≤ maxWidthMetric.value C.level := by
  have G := cell_grid hc hC
  obtain ⟨u, v, e, ⟨⟨h1, h2⟩, h3, h4⟩, hu, hv, i0, i1, i2, i3⟩ := G.side hk hp h
  obtain ⟨-, hx, hy⟩ := cell_parts hc hC
  dsimp only at h1 h2 h3 h4
  obtain ⟨E, -, -, -, hE, -⟩ := c75_edge isSqrt_real hc hC (Nat.mod_lt (k + 2) (show 4 > 0 by norm_num))
  rw [G.value rfl]
  interval_cases k
  · obtain ⟨q, q1, q2, q3⟩ := G.mk_side (k := 2) (by norm_num) (u := u) (v := C.uv.y.hi) ⟨⟨h1, h2⟩, hy.le, le_rfl⟩ (by simp) ⟨E, hE⟩
    refine ⟨q, q1, q2, ?_⟩
    rw [ang_loc G.face, e, q3, i0 rfl]
    exact G.line_y _
  · obtain ⟨q, q1, q2, q3⟩ := G.mk_side (k := 3) (by norm_num) (u := C.uv.x.lo) (v := v) ⟨⟨le_rfl, hx.le⟩, h3, h4⟩ (by simp) ⟨E, hE⟩
    refine ⟨q, q1, q2, ?_⟩
    rw [ang_loc G.face, e, q3, i1 rfl, ang_comm]
    exact G.line_x _
  · obtain ⟨q, q1, q2, q3⟩ := G.mk_side (k := 0) (by norm_num) (u := u) (v := C.uv.y.lo) ⟨⟨h1, h2⟩, le_rfl, hy.le⟩ (by simp) ⟨E, hE⟩
    refine ⟨q, q1, q2, ?_⟩
    rw [ang_loc G.face, e, q3, i2 rfl, ang_comm]
    exact G.line_y _
  · obtain ⟨q, q1, q2, q3⟩ := G.mk_side (k := 1) (by norm_num) (u := C.uv.x.hi) (v := v) ⟨⟨hx.le, le_rfl⟩, h3, h4⟩ (by simp) ⟨E, hE⟩
    refine ⟨q, q1, q2, ?_⟩
    rw [ang_loc G.face, e, q3, i3 rfl]
    exact G.line_x _

/-- **C109.** Any two points of the cell are at most `MAX_DIAGMETRIC` for its level apart. -/
theorem c109_diameter {p q : Vec ℝ} (hp : UnitV p) (hq : UnitV q) (h1 : InCell C p) (h2 : InCell C q) : ang p q ≤ maxDiagMetric.value C.level := by
  have G := cell_grid hc hC
  obtain ⟨a, b, a0, a1, b0, b1, e⟩ := G.point hp h1
  obtain ⟨a', b', a0', a1', b0', b1', e'⟩ := G.point hq h2
  rw [G.value rfl, ang_loc G.face, e, e']
  exact face_diag_le (abs_le.2 ⟨by linarith, by linarith⟩) (abs_le.2 ⟨by linarith, by linarith⟩)

/-- **C109.** Opposite vertices are at least `MIN_DIAGMETRIC` and at most `MAX_DIAGMETRIC` for the level of the cell apart. -/
theorem c109_diag {k : Nat} (hk : k < 4) {V W : Vec ℝ} (hV : C.vertex _root_.id Real.sqrt k = some V)
    (hW : C.vertex _root_.id Real.sqrt ((k + 2) % 4) = some W) :
    (minDiagMetric _root_.id (√2)).value C.level ≤ ang V W ∧ ang V W ≤ maxDiagMetric.value C.level := by
  have G := cell_grid hc hC
  obtain ⟨uV, eV⟩ := G.vertex hk hV
  obtain ⟨uW, eW⟩ := G.vertex (Nat.mod_lt _ (by norm_num)) hW
  constructor
  · rw [G.value rfl, ang_loc G.face, eV, eW]
    have c1 : (minDiagMetric (_root_.id : ℝ → ℝ) (√2)).deriv / 2 = 4 * √2 / 9 := by
      show (8 * √2 / 9 : ℝ) / 2 = 4 * √2 / 9
      ring
    rw [c1]
    have D : 4 * √2 / 9 * (2 * (2 ^ C.level)⁻¹) ≤ ang (facePt C.uv.x.lo C.uv.y.lo) (facePt C.uv.x.hi C.uv.y.hi) ∧
        4 * √2 / 9 * (2 * (2 ^ C.level)⁻¹) ≤ ang (facePt C.uv.x.hi C.uv.y.lo) (facePt C.uv.x.lo C.uv.y.hi) := by
      rw [G.xlo, G.xhi, G.ylo, G.yhi]
      rcases G.quarter with ⟨-, h1, h2⟩ | ⟨h1, h2, h3⟩
      · exact face_diag_ge G.pos G.s0 G.s1 h1 G.t0 G.t1 h2
      · rw [h2, h3, h1, show (-1 : ℝ) + 2 = 1 by norm_num]
        exact face_diag_face
    interval_cases k
    · exact D.1
    · exact D.2
    · rw [ang_comm]; exact D.1
    · rw [ang_comm]; exact D.2
  · obtain ⟨V', hV', v1, -⟩ := vertex_inCell hc hC hk
    obtain ⟨W', hW', w1, -⟩ := vertex_inCell hc hC (Nat.mod_lt (k + 2) (show 4 > 0 by norm_num))
    rw [hV] at hV'
    rw [hW] at hW'
    obtain rfl := Option.some.inj hV'
    obtain rfl := Option.some.inj hW'
    exact c109_diameter hc hC uV uW v1 w1

end

end Verif
