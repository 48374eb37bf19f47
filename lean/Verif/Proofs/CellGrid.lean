import Verif.Proofs.FaceMetric
import Verif.Proofs.CapUnion2
import Verif.Properties.CellAreaBound
import Verif.Properties.CapUnion

/-! # The grid coordinates of a cell, from -1 to 1 on each axis -/

namespace Verif
open Spec CellID

/-- The cell lies on its face between the grid coordinates `s` and `s + d`, `t` and `t + d`. -/
structure OnGrid (C : Cell ℝ) (s t d : ℝ) : Prop where
  face : C.face < 6
  pos : 0 < d
  size : d = 2 * (2 ^ C.level)⁻¹
  s0 : -1 ≤ s
  s1 : s + d ≤ 1
  t0 : -1 ≤ t
  t1 : t + d ≤ 1
  xlo : C.uv.x.lo = gUV s
  xhi : C.uv.x.hi = gUV (s + d)
  ylo : C.uv.y.lo = gUV t
  yhi : C.uv.y.hi = gUV (t + d)
  quarter : (d ≤ 1 ∧ (0 ≤ s ∨ s + d ≤ 0) ∧ (0 ≤ t ∨ t + d ≤ 0)) ∨ (d = 2 ∧ s = -1 ∧ t = -1)

theorem uvLine_grd (a : Int) : uvLine (_root_.id : ℝ → ℝ) a = gUV (grd a) := by
  unfold uvLine grd
  exact gUV_stToUV _

theorem ss_div {c : CellID} (hc : Valid c) : ((ss c : Nat) : ℝ) / 2 ^ 30 = (2 ^ lv c)⁻¹ := by
  have hm := hc.ss_mul
  have hm' : (2 : ℝ) ^ lv c * (ss c : ℝ) = 2 ^ 30 := by exact_mod_cast hm
  rw [← hm']
  have : (0 : ℝ) < ss c := by exact_mod_cast ss_pos c
  field_simp

theorem grid_line {c : CellID} (hc : Valid c) {a : Nat} (ha : a < 2 ^ lv c) :
    -1 ≤ grd ((a * ss c : Nat) : Int) ∧ grd ((a * ss c : Nat) : Int) + 2 * (2 ^ lv c)⁻¹ ≤ 1 ∧
    ((2 * (2 ^ lv c)⁻¹ ≤ (1 : ℝ) ∧ lv c ≠ 0 ∧ (0 ≤ grd ((a * ss c : Nat) : Int) ∨ grd ((a * ss c : Nat) : Int) + 2 * (2 ^ lv c)⁻¹ ≤ 0)) ∨
      (lv c = 0 ∧ grd ((a * ss c : Nat) : Int) = -1)) := by
  have e : grd ((a * ss c : Nat) : Int) = 2 * (a * (2 ^ lv c)⁻¹) - 1 := by
    unfold grd
    rw [← ss_div hc]
    push_cast
    ring
  have p : (0 : ℝ) < 2 ^ lv c := by positivity
  have ha' : (a : ℝ) + 1 ≤ 2 ^ lv c := by exact_mod_cast ha
  rw [e]
  have q : (0 : ℝ) ≤ a * (2 ^ lv c)⁻¹ := by positivity
  have q1 : ((a : ℝ) + 1) * (2 ^ lv c)⁻¹ ≤ 1 := by rw [← div_eq_mul_inv, div_le_one p]; exact ha'
  refine ⟨by linarith, by linarith, ?_⟩
  rcases Nat.eq_zero_or_pos (lv c) with h | h
  · right
    rw [h] at ha
    have : a = 0 := by omega
    refine ⟨h, ?_⟩
    rw [this]; norm_num
  · left
    obtain ⟨n, hn⟩ : ∃ n, lv c = n + 1 := ⟨lv c - 1, by omega⟩
    have p2 : (2 * (2 ^ lv c)⁻¹ : ℝ) = (2 ^ n)⁻¹ := by rw [hn, pow_succ]; field_simp
    have pn : (0 : ℝ) < 2 ^ n := by positivity
    refine ⟨?_, by omega, ?_⟩
    · rw [p2]
      exact inv_le_one_of_one_le₀ (one_le_pow₀ (by norm_num))
    · rcases Nat.lt_or_ge a (2 ^ n) with g | g
      · right
        have g' : (a : ℝ) + 1 ≤ 2 ^ n := by exact_mod_cast g
        have : ((a : ℝ) + 1) * (2 ^ n)⁻¹ ≤ 1 := by rw [← div_eq_mul_inv, div_le_one pn]; exact g'
        rw [← p2] at this
        linarith
      · left
        have g' : (2 : ℝ) ^ n ≤ a := by exact_mod_cast g
        have : 1 ≤ (a : ℝ) * (2 ^ n)⁻¹ := by rw [← div_eq_mul_inv, le_div_iff₀ pn]; linarith
        rw [← p2] at this
        linarith

theorem cell_grid {c : CellID} {C : Cell ℝ} (hc : Valid c) (hC : Cell.fromCellID _root_.id c = some C) :
    OnGrid C (grd (((sr c).1 * ss c : Nat) : Int)) (grd (((sr c).2.1 * ss c : Nat) : Int)) (2 * (2 ^ C.level)⁻¹) := by
  obtain ⟨h1, h2, h3⟩ := cell_rect hc hC
  obtain ⟨b1, b2, -⟩ := hc.sr_lt
  obtain ⟨x1, x2, x3⟩ := grid_line hc b1
  obtain ⟨y1, y2, y3⟩ := grid_line hc b2
  have hs : ∀ a : Int, grd (a + ((ss c : Nat) : Int)) = grd a + 2 * (2 ^ lv c)⁻¹ := by
    intro a
    rw [grd_add, ← ss_div hc]
    push_cast
    rfl
  rw [← h2] at x2 x3 y2 y3 hs
  refine ⟨by rw [h1]; exact hc.sf_lt, by positivity, rfl, x1, x2, y1, y2, ?_, ?_, ?_, ?_, ?_⟩
  · rw [h3]; exact uvLine_grd _
  · rw [h3, ← hs]; exact uvLine_grd _
  · rw [h3]; exact uvLine_grd _
  · rw [h3, ← hs]; exact uvLine_grd _
  · rcases x3 with ⟨g1, g2, g3⟩ | ⟨g1, g2⟩
    · rcases y3 with ⟨-, -, g4⟩ | ⟨g4, -⟩
      · exact Or.inl ⟨g1, g3, g4⟩
      · exact absurd g4 g2
    · rcases y3 with ⟨-, g4, -⟩ | ⟨-, g4⟩
      · exact absurd g1 g4
      · exact Or.inr ⟨by rw [g1]; norm_num, g2, g4⟩

/-- A unit vector towards a point of a face. -/
theorem loc_facePt {f : Nat} (hf : f < 6) {u v t : ℝ} {w : Vec ℝ} (h : faceUVtoXYZ f u v = some w) (ht : 0 < t) (hu : UnitV (smul t w)) :
    loc f (smul t w) = facePt u v := by
  have e := loc_smul (t := t) hf h
  have n : t ^ 2 * (1 + u ^ 2 + v ^ 2) = 1 := by
    have := loc_dot hf (smul t w) (smul t w)
    rw [e, hu] at this
    unfold dot at this
    linarith
  obtain ⟨r0, r1⟩ := face_r u v
  have tr : t * √(1 + u ^ 2 + v ^ 2) = 1 := by
    rw [← r1, ← mul_pow] at n
    exact (pow_eq_one_iff_of_nonneg (by positivity) two_ne_zero).1 n
  have ti : t = 1 / √(1 + u ^ 2 + v ^ 2) := by rw [eq_div_iff r0.ne']; exact tr
  rw [e]
  unfold facePt
  simp only [Vec.mk.injEq]
  refine ⟨ti, ?_, ?_⟩ <;> rw [ti] <;> ring

/-- The unit vector towards a point of a face. -/
theorem exists_facePt {f : Nat} (hf : f < 6) (u v : ℝ) :
    ∃ w t, faceUVtoXYZ f u v = some w ∧ 0 < t ∧ UnitV (smul t w) ∧ loc f (smul t w) = facePt u v := by
  obtain ⟨w, hw⟩ : ∃ w, faceUVtoXYZ f u v = some w := by interval_cases f <;> exact ⟨_, rfl⟩
  obtain ⟨t, t0, t1, t2⟩ := normalize_exact isSqrt_real (faceUV_nonzero hw)
  rw [t1] at t2
  exact ⟨w, t, hw, t0, t2, loc_facePt hf hw t0 t2⟩

theorem ang_loc {f : Nat} (hf : f < 6) (p q : Vec ℝ) : ang p q = ang (loc f p) (loc f q) := by
  unfold ang
  rw [loc_dot hf]

theorem gUV_cont : Continuous gUV := by
  have : Differentiable ℝ gUV := fun x => (gUV_deriv x).differentiableAt
  exact this.continuous

theorem gUV_between {a b u : ℝ} (h : a ≤ b) (h0 : gUV a ≤ u) (h1 : u ≤ gUV b) : ∃ s, a ≤ s ∧ s ≤ b ∧ u = gUV s := by
  obtain ⟨s, hs, e⟩ := intermediate_value_Icc h gUV_cont.continuousOn ⟨h0, h1⟩
  exact ⟨s, hs.1, hs.2, e.symm⟩

section
variable {C : Cell ℝ} {s t d : ℝ} (G : OnGrid C s t d)
include G

/-- A unit vector in the cell. -/
theorem OnGrid.point {p : Vec ℝ} (hp : UnitV p) (hin : InCell C p) :
    ∃ a b, s ≤ a ∧ a ≤ s + d ∧ t ≤ b ∧ b ≤ t + d ∧ loc C.face p = facePt (gUV a) (gUV b) := by
  obtain ⟨u, v, w, r, ⟨⟨h1, h2⟩, h3, h4⟩, hw, hr, rfl⟩ := hin
  dsimp only at h1 h2 h3 h4
  rw [G.xlo] at h1
  rw [G.xhi] at h2
  rw [G.ylo] at h3
  rw [G.yhi] at h4
  have := G.pos
  obtain ⟨a, a0, a1, rfl⟩ := gUV_between (by linarith) h1 h2
  obtain ⟨b, b0, b1, rfl⟩ := gUV_between (by linarith) h3 h4
  exact ⟨a, b, a0, a1, b0, b1, loc_facePt G.face hw hr hp⟩

/-- The vertices. -/
theorem OnGrid.vertex {k : Nat} (hk : k < 4) {V : Vec ℝ} (hV : C.vertex _root_.id Real.sqrt k = some V) :
    UnitV V ∧ loc C.face V = facePt (corner C.uv k).1 (corner C.uv k).2 := by
  obtain ⟨V', w, r, h1, h2, h3, h4, h5⟩ := c75_vertex isSqrt_real G.face hk
  rw [hV] at h1
  obtain rfl := Option.some.inj h1
  refine ⟨h5, ?_⟩
  have h5' : UnitV V := h5
  rw [h4] at h5' ⊢
  exact loc_facePt G.face h2 h3 h5'

end

/-- The normal of edge `k` in the coordinates of the face, up to its length. -/
def edgeDir (r : R2.Rect ℝ) : Nat → Vec ℝ
  | 0 => ⟨-r.y.lo, 0, 1⟩
  | 1 => ⟨r.x.hi, -1, 0⟩
  | 2 => ⟨r.y.hi, 0, -1⟩
  | _ => ⟨-r.x.lo, 1, 0⟩

theorem edge_loc {C : Cell ℝ} (hf : C.face < 6) {k : Nat} (hk : k < 4) {E : Vec ℝ} (hE : C.edge _root_.id Real.sqrt k = some E) :
    UnitV E ∧ ∃ q, 0 < q ∧ loc C.face E = smul q (edgeDir C.uv k) := by
  have key : ∀ n : Vec ℝ, E = n.normalize _root_.id Real.sqrt → loc C.face n = edgeDir C.uv k → ¬ (n.x = 0 ∧ n.y = 0 ∧ n.z = 0) →
      UnitV E ∧ ∃ q, 0 < q ∧ loc C.face E = smul q (edgeDir C.uv k) := by
    intro n h1 h2 h3
    obtain ⟨q, q0, q1, q2⟩ := normalize_exact isSqrt_real h3
    rw [← h1] at q2 q1
    refine ⟨q2, q, q0, ?_⟩
    rw [q1, ← h2]
    generalize C.face = f at hf
    interval_cases f <;> simp only [loc, smul, mul_neg]
  obtain ⟨f, l, o, id, ⟨⟨x0, x1⟩, ⟨y0, y1⟩⟩⟩ := C
  dsimp only at hf key
  interval_cases f <;> interval_cases k <;>
    (refine key _ (Option.some.inj hE).symm ?_ ?_
     · simp [loc, edgeDir, Vec.scale]
     · simp [Vec.scale])

end Verif
