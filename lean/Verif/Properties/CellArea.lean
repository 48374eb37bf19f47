import Verif.Properties.Area
import Verif.Properties.CellBound

/-!
# C101: `Cell::exact_area` is the area of the cell
-/

namespace Verif
open Spec CellID

/-- Two sets that differ only on one plane have the same area. -/
theorem area_congr_one {S T : Vec ℝ → Prop} {n : Vec ℝ} (hn : ¬ IsZero n) (h : ∀ v, dot n v ≠ 0 → (S v ↔ T v)) : sphereArea S = sphereArea T :=
  area_congr hn hn hn fun v h1 _ _ => h v h1

/-- A vector by its coordinates in a frame. -/
theorem frame_rep {a b c : Vec ℝ} (ha : dot a a = 1) (hb : dot b b = 1) (hab : dot a b = 0) (hcr : cross a b = c) (p : Vec ℝ) :
    p = ⟨dot a p * a.x + dot b p * b.x + dot c p * c.x, dot a p * a.y + dot b p * b.y + dot c p * c.y, dot a p * a.z + dot b p * b.z + dot c p * c.z⟩ := by
  have fs := frame_square (n := a) (e := b) ha hb hab
  rw [hcr] at fs
  have key : ∀ q : Vec ℝ, dot a p * dot a q + dot b p * dot b q + dot c p * dot c q = dot p q := by
    intro q
    have h1 := fs ⟨p.x + q.x, p.y + q.y, p.z + q.z⟩
    have h2 := fs p
    have h3 := fs q
    have d : ∀ n : Vec ℝ, dot n ⟨p.x + q.x, p.y + q.y, p.z + q.z⟩ = dot n p + dot n q := by intro n; simp only [dot]; ring
    rw [d, d, d] at h1
    have d2 : dot ⟨p.x + q.x, p.y + q.y, p.z + q.z⟩ ⟨p.x + q.x, p.y + q.y, p.z + q.z⟩ = dot p p + 2 * dot p q + dot q q := by simp only [dot]; ring
    rw [d2] at h1
    linarith
  have k1 := key ⟨1, 0, 0⟩
  have k2 := key ⟨0, 1, 0⟩
  have k3 := key ⟨0, 0, 1⟩
  have e1 : ∀ n : Vec ℝ, dot n ⟨1, 0, 0⟩ = n.x := by intro n; simp [dot]
  have e2 : ∀ n : Vec ℝ, dot n ⟨0, 1, 0⟩ = n.y := by intro n; simp [dot]
  have e3 : ∀ n : Vec ℝ, dot n ⟨0, 0, 1⟩ = n.z := by intro n; simp [dot]
  rw [e1, e1, e1, e1] at k1
  rw [e2, e2, e2, e2] at k2
  rw [e3, e3, e3, e3] at k3
  exact vec_eq k1.symm k2.symm k3.symm

/-- A cell in the coordinates of its face. -/
theorem inCell_coords {C : Cell ℝ} {a b c : Vec ℝ} (ha : dot a a = 1) (hb : dot b b = 1) (hc : dot c c = 1) (hab : dot a b = 0) (hbc : dot b c = 0)
    (hac : dot a c = 0) (hcr : cross a b = c)
    (hf : ∀ u v, faceUVtoXYZ C.face u v = some ⟨u * a.x + v * b.x + c.x, u * a.y + v * b.y + c.y, u * a.z + v * b.z + c.z⟩) (p : Vec ℝ) :
    InCell C p ↔ 0 < dot c p ∧ C.uv.x.lo * dot c p ≤ dot a p ∧ dot a p ≤ C.uv.x.hi * dot c p ∧ C.uv.y.lo * dot c p ≤ dot b p ∧
      dot b p ≤ C.uv.y.hi * dot c p := by
  have hrep := frame_rep ha hb hab hcr p
  constructor
  · rintro ⟨u, v, w, t, ⟨⟨h1, h2⟩, h3, h4⟩, hw, ht, hp⟩
    rw [hf] at hw
    obtain rfl := Option.some.inj hw
    have ea : dot a p = t * u := by
      rw [hp, show dot a (smul t _) = t * (u * dot a a + v * dot a b + dot a c) by simp only [dot, smul]; ring, ha, hab, hac]; ring
    have eb : dot b p = t * v := by
      rw [hp, show dot b (smul t _) = t * (u * dot a b + v * dot b b + dot b c) by simp only [dot, smul]; ring, hb, hab, hbc]; ring
    have ec : dot c p = t := by
      rw [hp, show dot c (smul t _) = t * (u * dot a c + v * dot b c + dot c c) by simp only [dot, smul]; ring, hc, hac, hbc]; ring
    dsimp only at h1 h2 h3 h4
    rw [ea, eb, ec]
    refine ⟨ht, ?_, ?_, ?_, ?_⟩ <;> nlinarith
  · rintro ⟨h0, h1, h2, h3, h4⟩
    refine ⟨dot a p / dot c p, dot b p / dot c p, _, dot c p, ⟨⟨?_, ?_⟩, ?_, ?_⟩, hf _ _, h0, ?_⟩
    · exact (le_div_iff₀ h0).2 h1
    · exact (div_le_iff₀ h0).2 h2
    · exact (le_div_iff₀ h0).2 h3
    · exact (div_le_iff₀ h0).2 h4
    · obtain ⟨α, hα⟩ : ∃ x, x = dot a p := ⟨_, rfl⟩
      obtain ⟨β, hβ⟩ : ∃ x, x = dot b p := ⟨_, rfl⟩
      obtain ⟨γ, hγ⟩ : ∃ x, x = dot c p := ⟨_, rfl⟩
      rw [← hα, ← hβ, ← hγ] at hrep
      rw [← hα, ← hβ, ← hγ, hrep]
      rw [← hγ] at h0
      apply vec_eq <;> simp only [smul] <;> field_simp

/-- A triangle in the coordinates of a face. -/
theorem inTriangle_coords {a b c : Vec ℝ} (ha : dot a a = 1) (hb : dot b b = 1) (hc : dot c c = 1) (hab : dot a b = 0) (hbc : dot b c = 0)
    (hac : dot a c = 0) (hcr : cross a b = c) {u0 v0 t0 u1 v1 t1 u2 v2 t2 : ℝ} (h0 : 0 < t0) (h1 : 0 < t1) (h2 : 0 < t2) (p : Vec ℝ) :
    InTriangle (smul t0 ⟨u0 * a.x + v0 * b.x + c.x, u0 * a.y + v0 * b.y + c.y, u0 * a.z + v0 * b.z + c.z⟩)
      (smul t1 ⟨u1 * a.x + v1 * b.x + c.x, u1 * a.y + v1 * b.y + c.y, u1 * a.z + v1 * b.z + c.z⟩)
      (smul t2 ⟨u2 * a.x + v2 * b.x + c.x, u2 * a.y + v2 * b.y + c.y, u2 * a.z + v2 * b.z + c.z⟩) p ↔
    ∃ x y z : ℝ, 0 ≤ x ∧ 0 ≤ y ∧ 0 ≤ z ∧ dot c p = x + y + z ∧ dot a p = x * u0 + y * u1 + z * u2 ∧ dot b p = x * v0 + y * v1 + z * v2 := by
  constructor
  · rintro ⟨x, y, z, x0, y0, z0, rfl⟩
    refine ⟨x * t0, y * t1, z * t2, by positivity, by positivity, by positivity, ?_, ?_, ?_⟩
    · refine Eq.trans (b := (x * t0 * u0 + y * t1 * u1 + z * t2 * u2) * dot a c + (x * t0 * v0 + y * t1 * v1 + z * t2 * v2) * dot b c +
        (x * t0 + y * t1 + z * t2) * dot c c) (by simp only [dot, smul]; ring) ?_
      rw [hac, hbc, hc]; ring
    · refine Eq.trans (b := (x * t0 * u0 + y * t1 * u1 + z * t2 * u2) * dot a a + (x * t0 * v0 + y * t1 * v1 + z * t2 * v2) * dot a b +
        (x * t0 + y * t1 + z * t2) * dot a c) (by simp only [dot, smul]; ring) ?_
      rw [hac, hab, ha]; ring
    · refine Eq.trans (b := (x * t0 * u0 + y * t1 * u1 + z * t2 * u2) * dot a b + (x * t0 * v0 + y * t1 * v1 + z * t2 * v2) * dot b b +
        (x * t0 + y * t1 + z * t2) * dot b c) (by simp only [dot, smul]; ring) ?_
      rw [hab, hbc, hb]; ring
  · rintro ⟨x, y, z, x0, y0, z0, hc, ha', hb'⟩
    have hrep := frame_rep ha hb hab hcr p
    rw [hc, ha', hb'] at hrep
    refine ⟨x / t0, y / t1, z / t2, by positivity, by positivity, by positivity, ?_⟩
    rw [hrep]
    apply vec_eq <;> simp only [smul] <;> field_simp <;> ring

theorem det_coords {a b c : Vec ℝ} (hc : dot c c = 1) (hcr : cross a b = c) (u0 v0 t0 u1 v1 t1 u2 v2 t2 : ℝ) :
    det (smul t0 ⟨u0 * a.x + v0 * b.x + c.x, u0 * a.y + v0 * b.y + c.y, u0 * a.z + v0 * b.z + c.z⟩)
      (smul t1 ⟨u1 * a.x + v1 * b.x + c.x, u1 * a.y + v1 * b.y + c.y, u1 * a.z + v1 * b.z + c.z⟩)
      (smul t2 ⟨u2 * a.x + v2 * b.x + c.x, u2 * a.y + v2 * b.y + c.y, u2 * a.z + v2 * b.z + c.z⟩) =
    t0 * t1 * t2 * ((u1 - u0) * (v2 - v0) - (u2 - u0) * (v1 - v0)) := by
  have e : det (smul t0 ⟨u0 * a.x + v0 * b.x + c.x, u0 * a.y + v0 * b.y + c.y, u0 * a.z + v0 * b.z + c.z⟩)
      (smul t1 ⟨u1 * a.x + v1 * b.x + c.x, u1 * a.y + v1 * b.y + c.y, u1 * a.z + v1 * b.z + c.z⟩)
      (smul t2 ⟨u2 * a.x + v2 * b.x + c.x, u2 * a.y + v2 * b.y + c.y, u2 * a.z + v2 * b.z + c.z⟩) =
    t0 * t1 * t2 * ((u1 - u0) * (v2 - v0) - (u2 - u0) * (v1 - v0)) * dot (cross a b) c := by
    simp only [det, dot, cross, smul]; ring
  rw [e, hcr, hc, mul_one]

theorem lower_triangle {xl xh yl yh α β γ : ℝ} (dx : 0 < xh - xl) (dy : 0 < yh - yl)
    (hp : (α - xl * γ) * (yh - yl) - (β - yl * γ) * (xh - xl) ≠ 0) :
    (∃ x y z : ℝ, 0 ≤ x ∧ 0 ≤ y ∧ 0 ≤ z ∧ γ = x + y + z ∧ α = x * xl + y * xh + z * xh ∧ β = x * yl + y * yl + z * yh) ↔
      (0 < γ ∧ xl * γ ≤ α ∧ α ≤ xh * γ ∧ yl * γ ≤ β ∧ β ≤ yh * γ) ∧ 0 ≤ (α - xl * γ) * (yh - yl) - (β - yl * γ) * (xh - xl) := by
  constructor
  · rintro ⟨x, y, z, x0, y0, z0, rfl, rfl, rfl⟩
    have y1 : 0 < y := by
      refine lt_of_le_of_ne y0 fun h => hp ?_
      rw [← h]; ring
    refine ⟨⟨by linarith, ?_, ?_, ?_, ?_⟩, ?_⟩
    · nlinarith
    · nlinarith
    · nlinarith
    · nlinarith
    · have : (x * xl + y * xh + z * xh - xl * (x + y + z)) * (yh - yl) - (x * yl + y * yl + z * yh - yl * (x + y + z)) * (xh - xl) =
        y * ((xh - xl) * (yh - yl)) := by ring
      rw [this]; positivity
  · rintro ⟨⟨k0, k1, k2, k3, k4⟩, k5⟩
    refine ⟨(xh * γ - α) / (xh - xl), ((α - xl * γ) * (yh - yl) - (β - yl * γ) * (xh - xl)) / ((xh - xl) * (yh - yl)), (β - yl * γ) / (yh - yl),
      div_nonneg (by linarith) dx.le, div_nonneg k5 (by positivity), div_nonneg (by linarith) dy.le, ?_, ?_, ?_⟩ <;> field_simp <;> ring

theorem upper_triangle {xl xh yl yh α β γ : ℝ} (dx : 0 < xh - xl) (dy : 0 < yh - yl)
    (hp : (α - xl * γ) * (yh - yl) - (β - yl * γ) * (xh - xl) ≠ 0) :
    (∃ x y z : ℝ, 0 ≤ x ∧ 0 ≤ y ∧ 0 ≤ z ∧ γ = x + y + z ∧ α = x * xl + y * xh + z * xl ∧ β = x * yl + y * yh + z * yh) ↔
      (0 < γ ∧ xl * γ ≤ α ∧ α ≤ xh * γ ∧ yl * γ ≤ β ∧ β ≤ yh * γ) ∧ ¬ 0 ≤ (α - xl * γ) * (yh - yl) - (β - yl * γ) * (xh - xl) := by
  constructor
  · rintro ⟨x, y, z, x0, y0, z0, rfl, rfl, rfl⟩
    have e : (x * xl + y * xh + z * xl - xl * (x + y + z)) * (yh - yl) - (x * yl + y * yh + z * yh - yl * (x + y + z)) * (xh - xl) =
        -(z * ((xh - xl) * (yh - yl))) := by ring
    have z1 : 0 < z := by
      refine lt_of_le_of_ne z0 fun h => hp ?_
      rw [e, ← h]; ring
    refine ⟨⟨by linarith, ?_, ?_, ?_, ?_⟩, ?_⟩
    · nlinarith
    · nlinarith
    · nlinarith
    · nlinarith
    · rw [e, not_le]
      have : 0 < z * ((xh - xl) * (yh - yl)) := by positivity
      linarith
  · rintro ⟨⟨k0, k1, k2, k3, k4⟩, k5⟩
    refine ⟨(yh * γ - β) / (yh - yl), (α - xl * γ) / (xh - xl), -((α - xl * γ) * (yh - yl) - (β - yl * γ) * (xh - xl)) / ((xh - xl) * (yh - yl)),
      div_nonneg (by linarith) dy.le, div_nonneg (by linarith) dx.le, div_nonneg (by linarith [not_le.1 k5]) (by positivity), ?_, ?_, ?_⟩ <;> field_simp <;> ring

/-- The two triangles of a cell. -/
theorem cell_triangles {C : Cell ℝ} (hf : C.face < 6) (hx : C.uv.x.lo < C.uv.x.hi) (hy : C.uv.y.lo < C.uv.y.hi) :
    ∃ V0 V1 V2 V3, C.vertex _root_.id Real.sqrt 0 = some V0 ∧ C.vertex _root_.id Real.sqrt 1 = some V1 ∧ C.vertex _root_.id Real.sqrt 2 = some V2 ∧
      C.vertex _root_.id Real.sqrt 3 = some V3 ∧ UnitV V0 ∧ UnitV V1 ∧ UnitV V2 ∧ UnitV V3 ∧ det V0 V1 V2 ≠ 0 ∧ det V0 V2 V3 ≠ 0 ∧
      sphereArea (InCell C) = sphereArea (InTriangle V0 V1 V2) + sphereArea (InTriangle V0 V2 V3) := by
  obtain ⟨a, b, n, -, -, -, ha, hb, hn, hab, hbn, han, hcr, huv, -⟩ := c73_frame (K := ℝ) hf
  obtain ⟨V0, w0, t0, e0, f0, p0, g0, n0⟩ := c75_vertex isSqrt_real hf (C := C) (k := 0) (by norm_num)
  obtain ⟨V1, w1, t1, e1, f1, p1, g1, n1⟩ := c75_vertex isSqrt_real hf (C := C) (k := 1) (by norm_num)
  obtain ⟨V2, w2, t2, e2, f2, p2, g2, n2⟩ := c75_vertex isSqrt_real hf (C := C) (k := 2) (by norm_num)
  obtain ⟨V3, w3, t3, e3, f3, p3, g3, n3⟩ := c75_vertex isSqrt_real hf (C := C) (k := 3) (by norm_num)
  rw [huv] at f0 f1 f2 f3
  obtain rfl := Option.some.inj f0
  obtain rfl := Option.some.inj f1
  obtain rfl := Option.some.inj f2
  obtain rfl := Option.some.inj f3
  replace g0 : V0 = smul t0 ⟨C.uv.x.lo * a.x + C.uv.y.lo * b.x + n.x, C.uv.x.lo * a.y + C.uv.y.lo * b.y + n.y, C.uv.x.lo * a.z + C.uv.y.lo * b.z + n.z⟩ := g0
  replace g1 : V1 = smul t1 ⟨C.uv.x.hi * a.x + C.uv.y.lo * b.x + n.x, C.uv.x.hi * a.y + C.uv.y.lo * b.y + n.y, C.uv.x.hi * a.z + C.uv.y.lo * b.z + n.z⟩ := g1
  replace g2 : V2 = smul t2 ⟨C.uv.x.hi * a.x + C.uv.y.hi * b.x + n.x, C.uv.x.hi * a.y + C.uv.y.hi * b.y + n.y, C.uv.x.hi * a.z + C.uv.y.hi * b.z + n.z⟩ := g2
  replace g3 : V3 = smul t3 ⟨C.uv.x.lo * a.x + C.uv.y.hi * b.x + n.x, C.uv.x.lo * a.y + C.uv.y.hi * b.y + n.y, C.uv.x.lo * a.z + C.uv.y.hi * b.z + n.z⟩ := g3
  obtain ⟨xl, hxl⟩ : ∃ x, x = C.uv.x.lo := ⟨_, rfl⟩
  obtain ⟨xh, hxh⟩ : ∃ x, x = C.uv.x.hi := ⟨_, rfl⟩
  obtain ⟨yl, hyl⟩ : ∃ x, x = C.uv.y.lo := ⟨_, rfl⟩
  obtain ⟨yh, hyh⟩ : ∃ x, x = C.uv.y.hi := ⟨_, rfl⟩
  have cc := inCell_coords ha hb hn hab hbn han hcr huv
  rw [← hxl, ← hxh] at hx
  rw [← hyl, ← hyh] at hy
  rw [← hxl, ← hyl] at g0
  rw [← hxh, ← hyl] at g1
  rw [← hxh, ← hyh] at g2
  rw [← hxl, ← hyh] at g3
  rw [← hxl, ← hxh, ← hyl, ← hyh] at cc
  have dx : 0 < xh - xl := sub_pos.2 hx
  have dy : 0 < yh - yl := sub_pos.2 hy
  have d1 : det V0 V1 V2 ≠ 0 := by
    rw [g0, g1, g2, det_coords hn hcr]
    rw [show (xh - xl) * (yh - yl) - (xh - xl) * (yl - yl) = (xh - xl) * (yh - yl) by ring]
    positivity
  have d2 : det V0 V2 V3 ≠ 0 := by
    rw [g0, g2, g3, det_coords hn hcr]
    rw [show (xh - xl) * (yh - yl) - (xl - xl) * (yh - yl) = (xh - xl) * (yh - yl) by ring]
    positivity
  refine ⟨V0, V1, V2, V3, e0, e1, e2, e3, n0, n1, n2, n3, d1, d2, ?_⟩
  -- the plane of the diagonal
  obtain ⟨D, hD⟩ : ∃ D : Vec ℝ, ∀ p, dot D p = (dot a p - xl * dot n p) * (yh - yl) - (dot b p - yl * dot n p) * (xh - xl) := by
    refine ⟨⟨(a.x - xl * n.x) * (yh - yl) - (b.x - yl * n.x) * (xh - xl), (a.y - xl * n.y) * (yh - yl) - (b.y - yl * n.y) * (xh - xl),
      (a.z - xl * n.z) * (yh - yl) - (b.z - yl * n.z) * (xh - xl)⟩, fun p => ?_⟩
    simp only [dot]; ring
  have hD0 : ¬ IsZero D := by
    rintro ⟨x, y, z⟩
    have := hD a
    rw [ha, dot_comm n a, han, dot_comm b a, hab] at this
    unfold dot at this
    rw [x, y, z] at this
    linarith
  have sp := area_split (InCell C) (fun v => 0 ≤ dot D v) (measurable_half D)
  rw [sp]
  refine (congrArg₂ (· + ·) (area_congr_one hD0 fun p hp => ?_) (area_congr_one hD0 fun p hp => ?_)).symm
  · rw [g0, g1, g2, inTriangle_coords ha hb hn hab hbn han hcr p0 p1 p2, cc, hD]
    rw [hD] at hp
    exact lower_triangle dx dy hp
  · rw [g0, g2, g3, inTriangle_coords ha hb hn hab hbn han hcr p0 p2 p3, cc, hD]
    rw [hD] at hp
    exact upper_triangle dx dy hp

/-- **C101.** In exact arithmetic `exact_area` is the area of the cell. -/
theorem c101_exactArea {c : CellID} {C : Cell ℝ} (hc : Valid c) (hC : Cell.fromCellID _root_.id c = some C) {atan2 : ℝ → ℝ → ℝ} (hat : IsAtan2 atan2) :
    C.exactArea _root_.id Real.sqrt atan2 Real.tan Real.arctan = some (sphereArea (InCell C)) := by
  obtain ⟨hf, hx, hy⟩ := cell_parts hc hC
  obtain ⟨V0, V1, V2, V3, e0, e1, e2, e3, n0, n1, n2, n3, d1, d2, e⟩ := cell_triangles hf hx hy
  have em : C.exactArea _root_.id Real.sqrt atan2 Real.tan Real.arctan =
      some (Vec.pointArea _root_.id Real.sqrt atan2 Real.tan Real.arctan V0 V1 V2 + Vec.pointArea _root_.id Real.sqrt atan2 Real.tan Real.arctan V0 V2 V3) := by
    unfold Cell.exactArea Cell.vertices
    rw [e0, e1, e2, e3]
    rfl
  rw [em, c100_pointArea hat n0 n1 n2 d1, c100_pointArea hat n0 n2 n3 d2, e]

/-- A cell of level 10. -/
example : ∃ C : Cell ℝ, Cell.fromCellID _root_.id ⟨0x6060730000000000#64⟩ = some C ∧
    C.exactArea _root_.id Real.sqrt (fun y x => (Complex.mk x y).arg) Real.tan Real.arctan = some (sphereArea (InCell C)) :=
  have h := (c68_from (_root_.id : ℝ → ℝ) exCell.1 exCell.2.1 exCell.1.square exCell.1.faceIJ).1
  ⟨_, h, c101_exactArea exCell.1 h isAtan2_arg⟩

end Verif
