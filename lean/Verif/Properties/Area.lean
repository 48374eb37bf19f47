import Mathlib.Analysis.Real.Pi.Bounds
import Verif.Model.Area
import Verif.Proofs.Excess
import Verif.Proofs.SolidAngle
import Verif.Properties.EdgeInterpolate
import Verif.Properties.EdgeDist

/-!
# C100: `point_area` is the area of the spherical triangle

The area of a set of directions is three times the volume of the part of the unit ball in these directions.
-/

namespace Verif
open Spec

namespace Spec

/-- The directions of the triangle with three given vertices. -/
def InTriangle (a b c v : Vec ℝ) : Prop :=
  ∃ x y z : ℝ, 0 ≤ x ∧ 0 ≤ y ∧ 0 ≤ z ∧
    v = ⟨x * a.x + y * b.x + z * c.x, x * a.y + y * b.y + z * c.y, x * a.z + y * b.z + z * c.z⟩

end Spec

/-- The angle between non-zero vectors. -/
theorem angle_general {atan2 : ℝ → ℝ → ℝ} (hat : IsAtan2 atan2) {u v : Vec ℝ} (hu : 0 < dot u u) (hv : 0 < dot v v) :
    Vec.angle _root_.id Real.sqrt atan2 u v = Real.arccos (dot u v / (Real.sqrt (dot u u) * Real.sqrt (dot v v))) := by
  have e : Vec.angle _root_.id Real.sqrt atan2 u v = atan2 (Real.sqrt (dot (cross u v) (cross u v))) (dot u v) := rfl
  have lag : dot (cross u v) (cross u v) = dot u u * dot v v - dot u v ^ 2 := by simp only [dot, cross]; ring
  have hcs : dot u v ^ 2 ≤ dot u u * dot v v := by have := dot_self_nonneg (cross u v); rw [lag] at this; linarith
  obtain ⟨R, hR⟩ : ∃ R, R = Real.sqrt (dot u u) * Real.sqrt (dot v v) := ⟨_, rfl⟩
  have R0 : 0 < R := by rw [hR]; exact mul_pos (Real.sqrt_pos.2 hu) (Real.sqrt_pos.2 hv)
  have R2 : R ^ 2 = dot u u * dot v v := by rw [hR, mul_pow, Real.sq_sqrt hu.le, Real.sq_sqrt hv.le]
  have hab := abs_le.1 (abs_le_of_sq_le_sq (a := dot u v) (b := R) (by rw [R2]; exact hcs) R0.le)
  have b1 : -1 ≤ dot u v / R := by rw [le_div_iff₀ R0]; linarith [hab.1]
  have b2 : dot u v / R ≤ 1 := by rw [div_le_one R0]; linarith [hab.2]
  have := hat R (Real.arccos (dot u v / R)) R0 (Real.arccos_nonneg _) (Real.arccos_le_pi _)
  rw [Real.sin_arccos, Real.cos_arccos b1 b2] at this
  rw [e, lag, ← hR, ← this]
  congr 1
  · rw [← Real.sqrt_sq R0.le, ← Real.sqrt_mul (by positivity)]
    congr 1
    rw [Real.sqrt_sq R0.le, ← R2]
    field_simp
  · field_simp

/-- The angle between the directions of two sides of a triangle at their common vertex. -/
theorem angle_cross {atan2 : ℝ → ℝ → ℝ} (hat : IsAtan2 atan2) {u v : Vec ℝ} {k g h : ℝ} (hg : 0 < g) (hh : 0 < h) (eu : dot u u = g) (ev : dot v v = h)
    (huv : dot u v = k) :
    Vec.angle _root_.id Real.sqrt atan2 (smul 2 u) (smul 2 v) = Real.arccos (k / (Real.sqrt g * Real.sqrt h)) := by
  have s : ∀ p q : Vec ℝ, dot (smul 2 p) (smul 2 q) = 4 * dot p q := by intro p q; simp only [dot, smul]; ring
  rw [angle_general hat (by rw [s, eu]; linarith) (by rw [s, ev]; linarith), s, s, s, eu, ev, huv]
  have q4 : Real.sqrt 4 = 2 := by rw [show (4 : ℝ) = 2 ^ 2 by norm_num, Real.sqrt_sq (by norm_num)]
  rw [Real.sqrt_mul (by norm_num), Real.sqrt_mul (by norm_num), q4, show 2 * Real.sqrt g * (2 * Real.sqrt h) = 4 * (Real.sqrt g * Real.sqrt h) by ring,
    mul_div_mul_left _ _ (by norm_num)]

theorem vec_eq {p q : Vec ℝ} (h1 : p.x = q.x) (h2 : p.y = q.y) (h3 : p.z = q.z) : p = q := by
  cases p; cases q; simp_all

/-- The half-spaces of a triangle. -/
theorem inTriangle_iff {a b c : Vec ℝ} {σ A B C : ℝ} (hA : 0 < A) (hB : 0 < B) (hC : 0 < C) (hσ : 0 < σ * det a b c) (v : Vec ℝ) :
    InTriangle a b c v ↔ 0 ≤ dot (smul (σ * A) (cross b c)) v ∧ 0 ≤ dot (smul (σ * B) (cross c a)) v ∧ 0 ≤ dot (smul (σ * C) (cross a b)) v := by
  have pull : ∀ (t : ℝ) (p q : Vec ℝ), dot (smul t p) q = t * dot p q := by intro t p q; simp only [dot, smul]; ring
  have D0 : det a b c ≠ 0 := by intro h; rw [h, mul_zero] at hσ; exact lt_irrefl _ hσ
  have σ0 : σ ≠ 0 := by intro h; rw [h, zero_mul] at hσ; exact lt_irrefl _ hσ
  constructor
  · rintro ⟨x, y, z, x0, y0, z0, rfl⟩
    refine ⟨?_, ?_, ?_⟩
    · rw [pull, show ∀ t : ℝ, t * dot (cross b c) _ = t * (x * det a b c) from fun t => congrArg (t * ·) (by simp only [dot, cross, det]; ring),
        show σ * A * (x * det a b c) = σ * det a b c * (A * x) by ring]
      positivity
    · rw [pull, show ∀ t : ℝ, t * dot (cross c a) _ = t * (y * det a b c) from fun t => congrArg (t * ·) (by simp only [dot, cross, det]; ring),
        show σ * B * (y * det a b c) = σ * det a b c * (B * y) by ring]
      positivity
    · rw [pull, show ∀ t : ℝ, t * dot (cross a b) _ = t * (z * det a b c) from fun t => congrArg (t * ·) (by simp only [dot, cross, det]; ring),
        show σ * C * (z * det a b c) = σ * det a b c * (C * z) by ring]
      positivity
  · rintro ⟨h1, h2, h3⟩
    have sgn : ∀ {A k : ℝ}, 0 < A → 0 ≤ σ * A * k → 0 ≤ k / det a b c := by
      intro A k hA h
      have h' : 0 ≤ σ * k := by
        by_contra hn
        have : σ * A * k = A * (σ * k) := by ring
        rw [this] at h
        nlinarith
      have : k / det a b c = σ * k / (σ * det a b c) := by field_simp
      rw [this]
      positivity
    rw [pull] at h1 h2 h3
    refine ⟨_, _, _, sgn hA h1, sgn hB h2, sgn hC h3, ?_⟩
    have hx : ∀ k p q r s t u : ℝ, k = (p * q + r * s + t * u) / det a b c → k = p / det a b c * q + r / det a b c * s + t / det a b c * u := by
      intro k p q r s t u h; rw [h]; ring
    apply vec_eq <;> refine hx _ _ _ _ _ _ _ ?_ <;> rw [eq_div_iff D0] <;> simp only [dot, cross, det] <;> ring

/-- The products of the sides of a triangle. -/
theorem side_products {a b c : Vec ℝ} (ha : UnitV a) (hb : UnitV b) (hc : UnitV c) (hd : det a b c ≠ 0) :
    0 < 1 - dot a b ^ 2 ∧ 0 < 1 - dot b c ^ 2 ∧ 0 < 1 - dot c a ^ 2 ∧
    det a b c ^ 2 = 1 + 2 * dot a b * dot b c * dot c a - dot a b ^ 2 - dot b c ^ 2 - dot c a ^ 2 := by
  unfold UnitV at ha hb hc
  have G : det a b c ^ 2 = dot a a * dot b b * dot c c + 2 * dot a b * dot b c * dot c a - dot c c * dot a b ^ 2 - dot a a * dot b c ^ 2 - dot b b * dot c a ^ 2 := by
    simp only [det, dot, cross]; ring
  rw [ha, hb, hc] at G
  have G0 : 0 < det a b c ^ 2 := by positivity
  have l1 := dot_le_one (show UnitV a from ha) (show UnitV b from hb)
  have l2 := dot_le_one (show UnitV b from hb) (show UnitV c from hc)
  have l3 := dot_le_one (show UnitV c from hc) (show UnitV a from ha)
  have key : ∀ p q r : ℝ, -1 ≤ p → p ≤ 1 → 0 < 1 + 2 * p * q * r - p ^ 2 - q ^ 2 - r ^ 2 → 0 < 1 - p ^ 2 := by
    intro p q r h1 h2 h
    rcases eq_or_lt_of_le h1 with h1 | h1
    · exfalso; subst h1; nlinarith [sq_nonneg (q + r)]
    · rcases eq_or_lt_of_le h2 with h2 | h2
      · exfalso; subst h2; nlinarith [sq_nonneg (q - r)]
      · nlinarith
  exact ⟨key _ (dot b c) (dot c a) l1.1 l1.2 (by linarith), key _ (dot a b) (dot c a) l2.1 l2.2 (by linarith),
    key _ (dot a b) (dot b c) l3.1 l3.2 (by linarith), by linarith⟩

/-- The area of a spherical triangle is the excess of its angles. -/
theorem area_corners {a b c : Vec ℝ} (ha : UnitV a) (hb : UnitV b) (hc : UnitV c) (hd : det a b c ≠ 0) :
    sphereArea (InTriangle a b c) = cornerAngle (dot a b) (dot c a) (dot b c) + cornerAngle (dot a b) (dot b c) (dot c a) +
      cornerAngle (dot b c) (dot c a) (dot a b) - Real.pi := by
  obtain ⟨hp, hq, hr, G⟩ := side_products ha hb hc hd
  unfold UnitV at ha hb hc
  obtain ⟨σ, s2, sD⟩ : ∃ σ : ℝ, σ * σ = 1 ∧ 0 < σ * det a b c := by
    rcases lt_or_gt_of_ne hd with h | h
    · exact ⟨-1, by norm_num, by linarith⟩
    · exact ⟨1, by norm_num, by linarith⟩
  have D2 : (σ * det a b c) ^ 2 = det a b c ^ 2 := by rw [mul_pow, pow_two σ, s2, one_mul]
  have e1 : dot (cross b c) (cross b c) = 1 - dot b c ^ 2 := by
    rw [show dot (cross b c) (cross b c) = dot b b * dot c c - dot b c ^ 2 by simp only [dot, cross]; ring, hb, hc]; ring
  have e2 : dot (cross c a) (cross c a) = 1 - dot c a ^ 2 := by
    rw [show dot (cross c a) (cross c a) = dot c c * dot a a - dot c a ^ 2 by simp only [dot, cross]; ring, hc, ha]; ring
  have e3 : dot (cross a b) (cross a b) = 1 - dot a b ^ 2 := by
    rw [show dot (cross a b) (cross a b) = dot a a * dot b b - dot a b ^ 2 by simp only [dot, cross]; ring, ha, hb]; ring
  have f12 : dot (cross b c) (cross c a) = dot b c * dot c a - dot a b := by
    rw [show dot (cross b c) (cross c a) = dot b c * dot c a - dot a b * dot c c by simp only [dot, cross]; ring, hc]; ring
  have f13 : dot (cross b c) (cross a b) = dot a b * dot b c - dot c a := by
    rw [show dot (cross b c) (cross a b) = dot a b * dot b c - dot c a * dot b b by simp only [dot, cross]; ring, hb]; ring
  have f23 : dot (cross c a) (cross a b) = dot a b * dot c a - dot b c := by
    rw [show dot (cross c a) (cross a b) = dot a b * dot c a - dot b c * dot a a by simp only [dot, cross]; ring, ha]; ring
  have sm : ∀ (s t : ℝ) (u v : Vec ℝ), dot (smul s u) (smul t v) = s * t * dot u v := by intro s t u v; simp only [dot, smul]; ring
  have p1 := Real.sqrt_pos.2 hp
  have p2 := Real.sqrt_pos.2 hq
  have p3 := Real.sqrt_pos.2 hr
  have unit : ∀ {u : Vec ℝ} {g : ℝ}, 0 < g → dot u u = g → UnitV (smul (σ * (1 / Real.sqrt g)) u) := by
    intro u g hg e
    unfold UnitV
    rw [sm, e, show σ * (1 / Real.sqrt g) * (σ * (1 / Real.sqrt g)) * g = σ * σ * (g / (Real.sqrt g ^ 2)) by ring, Real.sq_sqrt hg.le, s2, div_self hg.ne']
    norm_num
  have pair : ∀ {u v : Vec ℝ} {g h k : ℝ}, 0 < g → 0 < h → dot u v = -k →
      dot (smul (σ * (1 / Real.sqrt g)) u) (smul (σ * (1 / Real.sqrt h)) v) = -(k / (Real.sqrt g * Real.sqrt h)) := by
    intro u v g h k hg hh e
    rw [sm, e, show σ * (1 / Real.sqrt g) * (σ * (1 / Real.sqrt h)) * -k = σ * σ * -(k / (Real.sqrt g * Real.sqrt h)) by ring, s2, one_mul]
  have i12 := pair (u := cross b c) (v := cross c a) (k := dot a b - dot b c * dot c a) hq hr (by rw [f12]; ring)
  have i13 := pair (u := cross b c) (v := cross a b) (k := dot c a - dot a b * dot b c) hq hp (by rw [f13]; ring)
  have i23 := pair (u := cross c a) (v := cross a b) (k := dot b c - dot a b * dot c a) hr hp (by rw [f23]; ring)
  have lt : ∀ {p q r : ℝ}, 0 < 1 - p ^ 2 → 0 < 1 - r ^ 2 → det a b c ^ 2 = 1 + 2 * p * q * r - p ^ 2 - q ^ 2 - r ^ 2 →
      -1 < -((q - p * r) / (Real.sqrt (1 - p ^ 2) * Real.sqrt (1 - r ^ 2))) := by
    intro p q r h1 h2 h3
    have := (corner_spec (p := p) (q := -q) (r := -r) h1 (by rwa [neg_sq]) sD (by rw [D2, h3]; ring)).2.2
    rw [neg_sq, show -q - p * -r = -(q - p * r) by ring, neg_div] at this
    exact this
  have t := area_triangle (unit hq e1) (unit hr e2) (unit hp e3) (by rw [i12]; exact lt hq hr (by rw [G]; ring))
    (by rw [i13, mul_comm (Real.sqrt _), mul_comm (dot a b)]; rw [mul_comm (Real.sqrt _)]; exact lt hq hp (by rw [G]; ring))
    (by rw [i23, mul_comm (dot a b)]; exact lt hr hp (by rw [G]; ring))
  have hset : sphereArea (InTriangle a b c) = sphereArea (fun v => 0 ≤ dot (smul (σ * (1 / Real.sqrt (1 - dot b c ^ 2))) (cross b c)) v ∧
      0 ≤ dot (smul (σ * (1 / Real.sqrt (1 - dot c a ^ 2))) (cross c a)) v ∧ 0 ≤ dot (smul (σ * (1 / Real.sqrt (1 - dot a b ^ 2))) (cross a b)) v) :=
    congrArg sphereArea (funext fun v => propext (inTriangle_iff (by positivity) (by positivity) (by positivity) sD v))
  rw [hset, t]
  unfold ang
  rw [i12, i13, i23, Real.arccos_neg, Real.arccos_neg, Real.arccos_neg]
  unfold cornerAngle
  rw [mul_comm (Real.sqrt (1 - dot b c ^ 2)) (Real.sqrt (1 - dot a b ^ 2)), mul_comm (Real.sqrt (1 - dot c a ^ 2)) (Real.sqrt (1 - dot a b ^ 2))]
  ring

theorem area_nonneg (S : Vec ℝ → Prop) : 0 ≤ sphereArea S := by
  unfold sphereArea
  positivity

/-- **C100.** In exact arithmetic `point_area` of three points that are not on one great circle is the area of the spherical triangle. -/
theorem c100_pointArea {atan2 : ℝ → ℝ → ℝ} (hat : IsAtan2 atan2) {a b c : Vec ℝ} (ha : UnitV a) (hb : UnitV b) (hc : UnitV c) (hd : det a b c ≠ 0) :
    Vec.pointArea _root_.id Real.sqrt atan2 Real.tan Real.arctan a b c = sphereArea (InTriangle a b c) := by
  obtain ⟨hp, hq, hr, G⟩ := side_products ha hb hc hd
  have area := area_corners ha hb hc hd
  have E0 := area_nonneg (InTriangle a b c)
  obtain ⟨E, hE⟩ : ∃ E, E = sphereArea (InTriangle a b c) := ⟨_, rfl⟩
  rw [← hE] at area E0
  rw [← hE]
  have z0 : ∀ {u v : Vec ℝ}, UnitV u → UnitV v → 0 < 1 - dot u v ^ 2 → dot (cross u v) (cross u v) = 1 - dot u v ^ 2 ∧
      Vec.pointCross _root_.id Real.sqrt u v = smul 2 (cross u v) := by
    intro u v hu hv h
    have e1 : dot (cross u v) (cross u v) = 1 - dot u v ^ 2 := by
      rw [show dot (cross u v) (cross u v) = dot u u * dot v v - dot u v ^ 2 by simp only [dot, cross]; ring, hu, hv]; ring
    refine ⟨e1, (c74_pointCross isSqrt_real (unit_nonzero hu) (by rw [hu, hv])).2.2.2.1 ?_⟩
    rintro ⟨x, y, z⟩
    rw [← e1] at h
    unfold dot at h
    rw [x, y, z] at h
    norm_num at h
  obtain ⟨n1, c1⟩ := z0 ha hb hp
  obtain ⟨n2, c2⟩ := z0 hb hc hq
  obtain ⟨n3, c3⟩ := z0 ha hc (by rw [dot_comm]; exact hr)
  rw [dot_comm a c] at n3
  unfold UnitV at ha hb hc
  have gir : Vec.girardArea _root_.id Real.sqrt atan2 a b c = E := by
    have f1 : dot (cross a b) (cross a c) = dot b c - dot a b * dot c a := by
      rw [show dot (cross a b) (cross a c) = dot b c * dot a a - dot a b * dot c a by simp only [dot, cross]; ring, ha]; ring
    have f2 : dot (cross a b) (cross b c) = -(dot c a - dot a b * dot b c) := by
      rw [show dot (cross a b) (cross b c) = dot a b * dot b c - dot c a * dot b b by simp only [dot, cross]; ring, hb]; ring
    have f3 : dot (cross b c) (cross a c) = dot a b - dot b c * dot c a := by
      rw [show dot (cross b c) (cross a c) = dot a b * dot c c - dot b c * dot c a by simp only [dot, cross]; ring, hc]; ring
    unfold Vec.girardArea
    dsimp only
    rw [c1, c2, c3, angle_cross hat hp hr n1 n3 f1, angle_cross hat hp hq n1 n2 f2, angle_cross hat hq hr n2 n3 f3, neg_div, Real.arccos_neg]
    dsimp only [_root_.id]
    have : Real.arccos ((dot b c - dot a b * dot c a) / (Real.sqrt (1 - dot a b ^ 2) * Real.sqrt (1 - dot c a ^ 2))) -
        (Real.pi - Real.arccos ((dot c a - dot a b * dot b c) / (Real.sqrt (1 - dot a b ^ 2) * Real.sqrt (1 - dot b c ^ 2)))) +
        Real.arccos ((dot a b - dot b c * dot c a) / (Real.sqrt (1 - dot b c ^ 2) * Real.sqrt (1 - dot c a ^ 2))) = E := by
      rw [area]; unfold cornerAngle; ring
    rw [this, max_eq_left E0]
  have D0 : 0 < |det a b c| := abs_pos.2 hd
  have G' : |det a b c| ^ 2 = 1 + 2 * dot a b * dot b c * dot c a - dot a b ^ 2 - dot b c ^ 2 - dot c a ^ 2 := by rw [sq_abs, G]
  have E2 : E < 2 * Real.pi := by
    have k1 := (corner_spec hp hr D0 G').2.2
    have lt : ∀ {t : ℝ}, -1 < t → Real.arccos t < Real.pi := by
      intro t ht
      by_contra hn
      have h := le_antisymm (Real.arccos_le_pi t) (not_lt.1 hn)
      rw [Real.arccos_eq_pi] at h
      linarith
    have m1 : cornerAngle (dot a b) (dot c a) (dot b c) < Real.pi := lt k1
    have m2 : cornerAngle (dot a b) (dot b c) (dot c a) ≤ Real.pi := Real.arccos_le_pi _
    have m3 : cornerAngle (dot b c) (dot c a) (dot a b) ≤ Real.pi := Real.arccos_le_pi _
    rw [area]
    linarith
  have lh := lhuilier hp hq hr D0 G' area E0 E2 rfl rfl rfl rfl
  have lh' : Vec.lhuilierArea _root_.id Real.sqrt Real.tan Real.arctan (ang b c) (ang c a) (ang a b) (1 / 2 * (ang b c + ang c a + ang a b)) = E := lh
  unfold Vec.pointArea
  dsimp only
  rw [angle_exact hat hb hc, angle_exact hat hc ha, angle_exact hat ha hb, gir]
  split_ifs <;> first | rfl | exact lh'

/-! ## Points on one great circle -/

/-- The angle between parallel vectors. -/
theorem angle_parallel {atan2 : ℝ → ℝ → ℝ} (hat : IsAtan2 atan2) {n : Vec ℝ} (hn : 0 < dot n n) {k l : ℝ} :
    (0 < k * l → Vec.angle _root_.id Real.sqrt atan2 (smul k n) (smul l n) = 0) ∧
    (k * l < 0 → Vec.angle _root_.id Real.sqrt atan2 (smul k n) (smul l n) = Real.pi) := by
  have sm : ∀ s t : ℝ, dot (smul s n) (smul t n) = s * t * dot n n := by intro s t; simp only [dot, smul]; ring
  have main : k * l ≠ 0 → Vec.angle _root_.id Real.sqrt atan2 (smul k n) (smul l n) = Real.arccos (k * l / |k * l|) := by
    intro h
    have k0 : k ≠ 0 := left_ne_zero_of_mul h
    have l0 : l ≠ 0 := right_ne_zero_of_mul h
    have kk : 0 < k * k := mul_self_pos.2 k0
    have ll : 0 < l * l := mul_self_pos.2 l0
    rw [angle_general hat (by rw [sm]; positivity) (by rw [sm]; positivity), sm, sm, sm]
    have e : Real.sqrt (k * k * dot n n) * Real.sqrt (l * l * dot n n) = |k * l| * dot n n := by
      rw [← Real.sqrt_mul (by positivity), show k * k * dot n n * (l * l * dot n n) = (k * l * dot n n) ^ 2 by ring, Real.sqrt_sq_eq_abs, abs_mul, abs_of_pos hn]
    rw [e, mul_div_mul_right _ _ hn.ne']
  constructor
  · intro h
    rw [main h.ne', abs_of_pos h, div_self h.ne', Real.arccos_one]
  · intro h
    rw [main h.ne, abs_of_neg h, div_neg, div_self h.ne, Real.arccos_neg_one]

theorem pointArea_cases {atan2 : ℝ → ℝ → ℝ} (hat : IsAtan2 atan2) {a b c : Vec ℝ} (ha : UnitV a) (hb : UnitV b) (hc : UnitV c) :
    Vec.pointArea _root_.id Real.sqrt atan2 Real.tan Real.arctan a b c = Vec.girardArea _root_.id Real.sqrt atan2 a b c ∨
    Vec.pointArea _root_.id Real.sqrt atan2 Real.tan Real.arctan a b c =
      Vec.lhuilierArea _root_.id Real.sqrt Real.tan Real.arctan (ang b c) (ang c a) (ang a b) (1 / 2 * (ang b c + ang c a + ang a b)) := by
  unfold Vec.pointArea
  dsimp only
  rw [angle_exact hat hb hc, angle_exact hat hc ha, angle_exact hat ha hb]
  split_ifs <;> first | exact Or.inl rfl | exact Or.inr rfl

theorem lhuilier_zero {x y z : ℝ} (h : x = y + z ∨ y = z + x ∨ z = x + y) :
    Vec.lhuilierArea _root_.id Real.sqrt Real.tan Real.arctan x y z (1 / 2 * (x + y + z)) = 0 := by
  have e : Vec.lhuilierArea _root_.id Real.sqrt Real.tan Real.arctan x y z (1 / 2 * (x + y + z)) =
      4 * Real.arctan (Real.sqrt (max (Real.tan (1 / 2 * (1 / 2 * (x + y + z))) * Real.tan (1 / 2 * (1 / 2 * (x + y + z) - x)) *
        Real.tan (1 / 2 * (1 / 2 * (x + y + z) - y)) * Real.tan (1 / 2 * (1 / 2 * (x + y + z) - z))) 0)) := rfl
  rw [e]
  rcases h with h | h | h
  · rw [show 1 / 2 * (1 / 2 * (x + y + z) - x) = 0 by linarith]; simp
  · rw [show 1 / 2 * (1 / 2 * (x + y + z) - y) = 0 by linarith]; simp
  · rw [show 1 / 2 * (1 / 2 * (x + y + z) - z) = 0 by linarith]; simp

theorem ang_self {p : Vec ℝ} (hp : UnitV p) : ang p p = 0 := ang_of_cos le_rfl Real.pi_pos.le (by rw [hp, Real.cos_zero])

/-- **C100.** In exact arithmetic `point_area` of three points two of which coincide is zero. -/
theorem c100_coincident {atan2 : ℝ → ℝ → ℝ} (hat : IsAtan2 atan2) {a b : Vec ℝ} (ha : UnitV a) (hb : UnitV b) :
    Vec.pointArea _root_.id Real.sqrt atan2 Real.tan Real.arctan a a b = 0 ∧
    Vec.pointArea _root_.id Real.sqrt atan2 Real.tan Real.arctan b a a = 0 ∧
    Vec.pointArea _root_.id Real.sqrt atan2 Real.tan Real.arctan a b a = 0 := by
  have nz : ∀ {p q : Vec ℝ}, UnitV p → UnitV q → 0 < dot (Vec.pointCross _root_.id Real.sqrt p q) (Vec.pointCross _root_.id Real.sqrt p q) := by
    intro p q hp hq
    have h := (c74_pointCross isSqrt_real (unit_nonzero hp) (q := q) (by rw [hp, hq])).1
    refine lt_of_le_of_ne (dot_self_nonneg _) fun h0 => h ?_
    unfold dot at h0
    exact ⟨by nlinarith, by nlinarith, by nlinarith⟩
  have same : ∀ {u : Vec ℝ}, 0 < dot u u → Vec.angle _root_.id Real.sqrt atan2 u u = 0 := by
    intro u hu
    have := (angle_parallel hat hu (k := 1) (l := 1)).1 (by norm_num)
    rwa [show smul 1 u = u by simp [smul]] at this
  refine ⟨?_, ?_, ?_⟩
  · rcases pointArea_cases hat ha ha hb with h | h
    · rw [h]
      unfold Vec.girardArea
      dsimp only
      rw [same (nz ha hb)]
      simp
    · rw [h, ang_self ha]
      exact lhuilier_zero (Or.inl (by rw [ang_comm a b]; ring))
  · rcases pointArea_cases hat hb ha ha with h | h
    · rw [h]
      have : Vec.girardArea _root_.id Real.sqrt atan2 b a a = max (Vec.angle _root_.id Real.sqrt atan2 (Vec.pointCross _root_.id Real.sqrt b a) (Vec.pointCross _root_.id Real.sqrt b a) -
        Vec.angle _root_.id Real.sqrt atan2 (Vec.pointCross _root_.id Real.sqrt b a) (Vec.pointCross _root_.id Real.sqrt a a) +
        Vec.angle _root_.id Real.sqrt atan2 (Vec.pointCross _root_.id Real.sqrt a a) (Vec.pointCross _root_.id Real.sqrt b a)) 0 := rfl
      rw [this, same (nz hb ha)]
      have cm : ∀ u v : Vec ℝ, 0 < dot u u → 0 < dot v v → Vec.angle _root_.id Real.sqrt atan2 u v = Vec.angle _root_.id Real.sqrt atan2 v u := by
        intro u v hu hv
        rw [angle_general hat hu hv, angle_general hat hv hu, dot_comm, mul_comm]
      rw [cm _ _ (nz hb ha) (nz ha ha)]
      simp
    · rw [h, ang_self ha]
      exact lhuilier_zero (Or.inr (Or.inl (by rw [ang_comm a b]; ring)))
  · rcases pointArea_cases hat ha hb ha with h | h
    · rw [h]
      have e : Vec.girardArea _root_.id Real.sqrt atan2 a b a = max (Vec.angle _root_.id Real.sqrt atan2 (Vec.pointCross _root_.id Real.sqrt a b) (Vec.pointCross _root_.id Real.sqrt a a) -
        Vec.angle _root_.id Real.sqrt atan2 (Vec.pointCross _root_.id Real.sqrt a b) (Vec.pointCross _root_.id Real.sqrt b a) +
        Vec.angle _root_.id Real.sqrt atan2 (Vec.pointCross _root_.id Real.sqrt b a) (Vec.pointCross _root_.id Real.sqrt a a)) 0 := rfl
      rw [e]
      have opp : ∀ u v : Vec ℝ, 0 < dot u u → 0 < dot v v → Vec.angle _root_.id Real.sqrt atan2 (smul (-1) u) v = Real.pi - Vec.angle _root_.id Real.sqrt atan2 u v := by
        intro u v hu hv
        have e1 : dot (smul (-1) u) (smul (-1) u) = dot u u := by simp only [dot, smul]; ring
        have e2 : dot (smul (-1) u) v = -dot u v := by simp only [dot, smul]; ring
        rw [angle_general hat (by rw [e1]; exact hu) hv, angle_general hat hu hv, e1, e2, neg_div, Real.arccos_neg]
      by_cases hab : b = a
      · rw [hab, same (nz ha ha)]
        simp
      have rev : Vec.pointCross _root_.id Real.sqrt b a = smul (-1) (Vec.pointCross _root_.id Real.sqrt a b) := by
        have q1 := c74_pointCross isSqrt_real (unit_nonzero ha) (q := b) (by rw [ha, hb])
        have q2 := c74_pointCross isSqrt_real (unit_nonzero hb) (q := a) (by rw [ha, hb])
        have sw : cross b a = smul (-1) (cross a b) := by apply vec_eq <;> simp only [cross, smul] <;> ring
        by_cases hz : IsZero (cross a b)
        · have hz' : IsZero (cross b a) := by
            obtain ⟨x, y, z⟩ := hz
            rw [sw]
            refine ⟨?_, ?_, ?_⟩ <;> simp only [smul, x, y, z, mul_zero]
          obtain ⟨w1, w2⟩ := q1.2.2.2.2 hz
          obtain ⟨w3, w4⟩ := q2.2.2.2.2 hz'
          have := w1.resolve_left hab
          rw [w2, w4, this]
          exact c74_ortho_odd (fl := _root_.id) Real.sqrt (fun _ => rfl) a
        · have hz' : ¬ IsZero (cross b a) := by
            rintro ⟨x, y, z⟩
            rw [sw] at x y z
            simp only [smul] at x y z
            exact hz ⟨by linarith, by linarith, by linarith⟩
          rw [q1.2.2.2.1 hz, q2.2.2.2.1 hz', sw]
          apply vec_eq <;> simp only [smul] <;> ring
      have o1 : Vec.angle _root_.id Real.sqrt atan2 (Vec.pointCross _root_.id Real.sqrt a b) (smul (-1) (Vec.pointCross _root_.id Real.sqrt a b)) = Real.pi := by
        have := (angle_parallel hat (nz ha hb) (k := 1) (l := -1)).2 (by norm_num)
        rwa [show ∀ u : Vec ℝ, smul 1 u = u from fun u => by simp [smul]] at this
      rw [rev, o1, opp _ _ (nz ha hb) (nz ha ha)]
      simp
    · rw [h, ang_self ha]
      exact lhuilier_zero (Or.inr (Or.inr (by rw [ang_comm a b]; ring)))

/-- The parts of an edge add up. -/
theorem edge_ang {a b c : Vec ℝ} (ha : UnitV a) (hb : UnitV b) (hc : UnitV c) {s t : ℝ} (hs : 0 ≤ s) (ht : 0 ≤ t) (h : c = lin s a t b)
    (hn : 0 < dot (cross a b) (cross a b)) : ang a c + ang c b = ang a b := by
  have sinE : ∀ {u v : Vec ℝ}, UnitV u → UnitV v → Real.sin (ang u v) = Real.sqrt (dot (cross u v) (cross u v)) := by
    intro u v hu hv
    have w : dot (cross u v) (cross u v) = 1 - dot u v ^ 2 := by
      have : dot (cross u v) (cross u v) = dot u u * dot v v - dot u v ^ 2 := by simp only [dot, cross]; ring
      rw [this, hu, hv]; ring
    unfold ang; rw [Real.sin_arccos, w]
  obtain ⟨S, hS⟩ : ∃ S, S = Real.sqrt (dot (cross a b) (cross a b)) := ⟨_, rfl⟩
  have S0 : 0 < S := by rw [hS]; exact Real.sqrt_pos.2 hn
  have S2 : S ^ 2 = dot (cross a b) (cross a b) := by rw [hS, Real.sq_sqrt hn.le]
  have x1 : Real.sin (ang a c) = t * S := by
    rw [sinE ha hc, h, show dot (cross a (lin s a t b)) (cross a (lin s a t b)) = t ^ 2 * dot (cross a b) (cross a b) by simp only [dot, cross, lin]; ring,
      Real.sqrt_mul (by positivity), Real.sqrt_sq ht, hS]
  have x2 : Real.sin (ang c b) = s * S := by
    rw [sinE hc hb, h, show dot (cross (lin s a t b) b) (cross (lin s a t b) b) = s ^ 2 * dot (cross a b) (cross a b) by simp only [dot, cross, lin]; ring,
      Real.sqrt_mul (by positivity), Real.sqrt_sq hs, hS]
  have x3 : Real.sin (ang a b) = S := by rw [sinE ha hb, hS]
  have cs : Real.cos (ang a c + ang c b) = Real.cos (ang a b) := by
    rw [Real.cos_add, cos_ang ha hc, cos_ang hc hb, cos_ang ha hb, x1, x2]
    have k1 : dot (cross a c) (cross c b) = dot a c * dot c b - dot a b * dot c c := by simp only [dot, cross]; ring
    have k2 : dot (cross a c) (cross c b) = s * t * dot (cross a b) (cross a b) := by rw [h]; simp only [dot, cross, lin]; ring
    rw [hc] at k1
    rw [k1, ← S2] at k2
    linear_combination k2
  have sn : Real.sin (ang a c + ang c b) = S := by
    rw [Real.sin_add, cos_ang ha hc, cos_ang hc hb, x1, x2]
    have k1 : t * dot c b + s * dot a c = dot c c := by
      have : dot c c = dot c (lin s a t b) := by rw [← h]
      rw [this]; simp only [dot, lin]; ring
    rw [hc] at k1
    linear_combination S * k1
  have le : ang a c + ang c b ≤ Real.pi := by
    by_contra hgt
    have l1 := ang_le_pi a c
    have l2 := ang_le_pi c b
    have : Real.sin (ang a c + ang c b) ≤ 0 := by
      have := Real.sin_nonneg_of_nonneg_of_le_pi (x := ang a c + ang c b - Real.pi) (by linarith) (by linarith)
      rw [Real.sin_sub_pi] at this
      linarith
    linarith
  exact Real.injOn_cos ⟨by linarith [ang_nonneg a c, ang_nonneg c b], le⟩ ⟨ang_nonneg _ _, ang_le_pi _ _⟩ cs

theorem pointCross_along {a b : Vec ℝ} (ha : UnitV a) (hb : UnitV b) {n : Vec ℝ} (hn : 0 < dot n n) {k : ℝ} (hk : k ≠ 0) (h : cross a b = smul k n) :
    Vec.pointCross _root_.id Real.sqrt a b = smul (2 * k) n := by
  have hz : ¬ IsZero (cross a b) := by
    rintro ⟨x, y, z⟩
    have e : dot (cross a b) (cross a b) = k ^ 2 * dot n n := by rw [h]; simp only [dot, smul]; ring
    have : 0 < dot (cross a b) (cross a b) := by rw [e]; positivity
    unfold dot at this
    rw [x, y, z] at this
    norm_num at this
  rw [(c74_pointCross isSqrt_real (unit_nonzero ha) (by rw [ha, hb])).2.2.2.1 hz, h]
  apply vec_eq <;> simp only [smul] <;> ring

/-- The value of Girard's formula for points on the great circle perpendicular to `n`. -/
theorem girard_circle {atan2 : ℝ → ℝ → ℝ} (hat : IsAtan2 atan2) {a b c n : Vec ℝ} (ha : UnitV a) (hb : UnitV b) (hc : UnitV c) (hn : 0 < dot n n)
    {k l m : ℝ} (h1 : cross a b = smul k n) (h2 : cross b c = smul l n) (h3 : cross a c = smul m n) :
    (0 < k * l → 0 < k * m → 0 < l * m → Vec.girardArea _root_.id Real.sqrt atan2 a b c = 0) ∧
    (k * l < 0 → 0 < k * m → l * m < 0 → Vec.girardArea _root_.id Real.sqrt atan2 a b c = 0) ∧
    (k * l < 0 → k * m < 0 → 0 < l * m → Vec.girardArea _root_.id Real.sqrt atan2 a b c = 0) ∧
    (0 < k * l → k * m < 0 → l * m < 0 → Vec.girardArea _root_.id Real.sqrt atan2 a b c = 2 * Real.pi) := by
  have e : ∀ p q : ℝ, 2 * p * (2 * q) = 4 * (p * q) := fun p q => by ring
  have P : ∀ {p q : ℝ}, 0 < p * q → Vec.angle _root_.id Real.sqrt atan2 (smul (2 * p) n) (smul (2 * q) n) = 0 :=
    fun {p q} h => (angle_parallel hat hn).1 (by rw [e]; linarith)
  have N : ∀ {p q : ℝ}, p * q < 0 → Vec.angle _root_.id Real.sqrt atan2 (smul (2 * p) n) (smul (2 * q) n) = Real.pi :=
    fun {p q} h => (angle_parallel hat hn).2 (by rw [e]; linarith)
  have main : k * l ≠ 0 → k * m ≠ 0 → Vec.girardArea _root_.id Real.sqrt atan2 a b c =
      max (Vec.angle _root_.id Real.sqrt atan2 (smul (2 * k) n) (smul (2 * m) n) - Vec.angle _root_.id Real.sqrt atan2 (smul (2 * k) n) (smul (2 * l) n) +
        Vec.angle _root_.id Real.sqrt atan2 (smul (2 * l) n) (smul (2 * m) n)) 0 := by
    intro z1 z2
    unfold Vec.girardArea
    dsimp only
    rw [pointCross_along ha hb hn (left_ne_zero_of_mul z1) h1, pointCross_along hb hc hn (right_ne_zero_of_mul z1) h2, pointCross_along ha hc hn (right_ne_zero_of_mul z2) h3]
    rfl
  refine ⟨fun g1 g2 g3 => ?_, fun g1 g2 g3 => ?_, fun g1 g2 g3 => ?_, fun g1 g2 g3 => ?_⟩
  · rw [main g1.ne' g2.ne', P g1, P g2, P g3]; simp
  · rw [main g1.ne g2.ne', N g1, P g2, N g3]; simp
  · rw [main g1.ne g2.ne, N g1, N g2, P g3]; simp
  · rw [main g1.ne' g2.ne, P g1, N g2, N g3, max_eq_left (by linarith [Real.pi_pos])]; ring

/-- **C100.** In exact arithmetic `point_area` of three points, one of which is on the edge between the other two, is zero. -/
theorem c100_collinear {atan2 : ℝ → ℝ → ℝ} (hat : IsAtan2 atan2) {a b c : Vec ℝ} (ha : UnitV a) (hb : UnitV b) (hn : ¬ IsZero (cross a b)) (hc : OnEdge a b c) :
    Vec.pointArea _root_.id Real.sqrt atan2 Real.tan Real.arctan a b c = 0 ∧
    Vec.pointArea _root_.id Real.sqrt atan2 Real.tan Real.arctan c a b = 0 ∧
    Vec.pointArea _root_.id Real.sqrt atan2 Real.tan Real.arctan b c a = 0 := by
  obtain ⟨uc, s, t, hs, ht, h⟩ := hc
  have hn0 : 0 < dot (cross a b) (cross a b) := by
    refine lt_of_le_of_ne (dot_self_nonneg _) fun h0 => hn ?_
    unfold dot at h0
    exact ⟨by nlinarith, by nlinarith, by nlinarith⟩
  have sum := edge_ang ha hb uc hs ht h hn0
  have one : ∀ {p q : Vec ℝ} {r : ℝ}, UnitV p → UnitV q → 0 ≤ r → p = smul r q → p = q := by
    intro p q r hp hq hr e
    have : r ^ 2 = 1 := by
      have : dot p p = r ^ 2 * dot q q := by rw [e]; simp only [dot, smul]; ring
      rw [hp, hq] at this; linarith
    have r1 : r = 1 := by nlinarith
    rw [e, r1]; simp [smul]
  rcases eq_or_lt_of_le hs with s0 | s0
  · have : c = b := one uc hb ht (by rw [h, ← s0]; simp [lin, smul])
    rw [this]
    exact ⟨(c100_coincident hat hb ha).2.1, (c100_coincident hat hb ha).2.2, (c100_coincident hat hb ha).1⟩
  rcases eq_or_lt_of_le ht with t0 | t0
  · have : c = a := one uc ha hs (by rw [h, ← t0]; simp [lin, smul])
    rw [this]
    exact ⟨(c100_coincident hat ha hb).2.2, (c100_coincident hat ha hb).1, (c100_coincident hat ha hb).2.1⟩
  have ab : cross a b = smul 1 (cross a b) := by simp [smul]
  have ba : cross b a = smul (-1) (cross a b) := by apply vec_eq <;> simp only [smul, cross] <;> ring
  have ac : cross a c = smul t (cross a b) := by rw [h]; apply vec_eq <;> simp only [smul, cross, lin] <;> ring
  have ca : cross c a = smul (-t) (cross a b) := by rw [h]; apply vec_eq <;> simp only [smul, cross, lin] <;> ring
  have bc : cross b c = smul (-s) (cross a b) := by rw [h]; apply vec_eq <;> simp only [smul, cross, lin] <;> ring
  have cb : cross c b = smul s (cross a b) := by rw [h]; apply vec_eq <;> simp only [smul, cross, lin] <;> ring
  have st : 0 < s * t := mul_pos s0 t0
  refine ⟨?_, ?_, ?_⟩
  · rcases pointArea_cases hat ha hb uc with g | g
    · rw [g]
      exact (girard_circle hat ha hb uc hn0 ab bc ac).2.1 (by linarith) (by linarith) (by linarith)
    · rw [g]
      exact lhuilier_zero (Or.inr (Or.inr (by rw [ang_comm b c, ang_comm c a]; linarith)))
  · rcases pointArea_cases hat uc ha hb with g | g
    · rw [g]
      exact (girard_circle hat uc ha hb hn0 ca ab cb).2.2.1 (by linarith) (by linarith) (by linarith)
    · rw [g]
      exact lhuilier_zero (Or.inl (by rw [ang_comm b c, ang_comm c a]; linarith))
  · rcases pointArea_cases hat hb uc ha with g | g
    · rw [g]
      exact (girard_circle hat hb uc ha hn0 bc ca ba).1 (by linarith) (by linarith) (by linarith)
    · rw [g]
      exact lhuilier_zero (Or.inr (Or.inl (by rw [ang_comm b c, ang_comm c a]; linarith)))

/-- **C100.** In exact arithmetic `point_area` of three points spread around a great circle is the area of a hemisphere. -/
theorem c100_around {atan2 : ℝ → ℝ → ℝ} (hat : IsAtan2 atan2) {a b c : Vec ℝ} (ha : UnitV a) (hb : UnitV b) (uc : UnitV c) (hn : ¬ IsZero (cross a b)) {s t : ℝ}
    (s0 : 0 < s) (t0 : 0 < t) (h : c = smul (-1) (lin s a t b)) :
    Vec.pointArea _root_.id Real.sqrt atan2 Real.tan Real.arctan a b c = 2 * Real.pi := by
  have hn0 : 0 < dot (cross a b) (cross a b) := by
    refine lt_of_le_of_ne (dot_self_nonneg _) fun h0 => hn ?_
    unfold dot at h0
    exact ⟨by nlinarith, by nlinarith, by nlinarith⟩
  have hm : lin s a t b = smul (-1) c := by rw [h]; apply vec_eq <;> simp only [smul, lin] <;> ring
  have um : UnitV (smul (-1) c) := by unfold UnitV at uc ⊢; refine Eq.trans ?_ uc; simp only [dot, smul]; ring
  have sum := edge_ang ha hb um s0.le t0.le hm.symm hn0
  have x1 : ang a (smul (-1) c) = Real.pi - ang c a := by
    unfold ang
    rw [show dot a (smul (-1) c) = -dot c a by simp only [dot, smul]; ring, Real.arccos_neg]
  have x2 : ang (smul (-1) c) b = Real.pi - ang b c := by
    unfold ang
    rw [show dot (smul (-1) c) b = -dot b c by simp only [dot, smul]; ring, Real.arccos_neg]
  rw [x1, x2] at sum
  have ab : cross a b = smul 1 (cross a b) := by simp [smul]
  have ac : cross a c = smul (-t) (cross a b) := by rw [h]; apply vec_eq <;> simp only [smul, cross, lin] <;> ring
  have bc : cross b c = smul s (cross a b) := by rw [h]; apply vec_eq <;> simp only [smul, cross, lin] <;> ring
  have st : 0 < s * t := mul_pos s0 t0
  have gir := (girard_circle hat ha hb uc hn0 ab bc ac).2.2.2 (by linarith) (by linarith) (by linarith)
  have p3 := Real.pi_gt_three
  have hs : 1 / 2 * (ang b c + ang c a + ang a b) = Real.pi := by linarith
  have e : Vec.pointArea _root_.id Real.sqrt atan2 Real.tan Real.arctan a b c =
      if 1 / 2 * (ang b c + ang c a + ang a b) ≥ 3 / 10000 then
        if 1 / 2 * (ang b c + ang c a + ang a b) - max (ang b c) (max (ang c a) (ang a b)) <
          1 / 100 * (1 / 2 * (ang b c + ang c a + ang a b)) * (1 / 2 * (ang b c + ang c a + ang a b)) * (1 / 2 * (ang b c + ang c a + ang a b)) *
            (1 / 2 * (ang b c + ang c a + ang a b)) * (1 / 2 * (ang b c + ang c a + ang a b)) then
          if 1 / 2 * (ang b c + ang c a + ang a b) - max (ang b c) (max (ang c a) (ang a b)) <
            1 / 2 * (ang b c + ang c a + ang a b) * (1 / 10) * Vec.girardArea _root_.id Real.sqrt atan2 a b c then Vec.girardArea _root_.id Real.sqrt atan2 a b c
          else Vec.lhuilierArea _root_.id Real.sqrt Real.tan Real.arctan (ang b c) (ang c a) (ang a b) (1 / 2 * (ang b c + ang c a + ang a b))
        else Vec.lhuilierArea _root_.id Real.sqrt Real.tan Real.arctan (ang b c) (ang c a) (ang a b) (1 / 2 * (ang b c + ang c a + ang a b))
      else Vec.lhuilierArea _root_.id Real.sqrt Real.tan Real.arctan (ang b c) (ang c a) (ang a b) (1 / 2 * (ang b c + ang c a + ang a b)) := by
    unfold Vec.pointArea
    dsimp only
    rw [angle_exact hat hb uc, angle_exact hat uc ha, angle_exact hat ha hb]
    rfl
  have mx : Real.pi * (2 / 3) ≤ max (ang b c) (max (ang c a) (ang a b)) := by
    have m1 := le_max_left (ang b c) (max (ang c a) (ang a b))
    have m2 := (le_max_left (ang c a) (ang a b)).trans (le_max_right (ang b c) _)
    have m3 := (le_max_right (ang c a) (ang a b)).trans (le_max_right (ang b c) _)
    linarith
  have p4 : 81 ≤ Real.pi * Real.pi * Real.pi * Real.pi := by
    have : 9 ≤ Real.pi * Real.pi := by nlinarith
    nlinarith
  rw [e, hs, gir, if_pos (by linarith), if_pos ?_, if_pos ?_]
  · nlinarith
  · have : 1 / 100 * Real.pi * Real.pi * Real.pi * Real.pi * Real.pi = 1 / 100 * (Real.pi * Real.pi * Real.pi * Real.pi) * Real.pi := by ring
    rw [this]
    nlinarith

/-- The octant: a right angle at each corner, so area π/2. -/
example : Vec.pointArea _root_.id Real.sqrt (fun y x => (Complex.mk x y).arg) Real.tan Real.arctan ⟨1, 0, 0⟩ ⟨0, 1, 0⟩ ⟨0, 0, 1⟩ = Real.pi / 2 := by
  have h1 : UnitV (⟨1, 0, 0⟩ : Vec ℝ) := by norm_num [UnitV, dot]
  have h2 : UnitV (⟨0, 1, 0⟩ : Vec ℝ) := by norm_num [UnitV, dot]
  have h3 : UnitV (⟨0, 0, 1⟩ : Vec ℝ) := by norm_num [UnitV, dot]
  have hd : det (⟨1, 0, 0⟩ : Vec ℝ) ⟨0, 1, 0⟩ ⟨0, 0, 1⟩ ≠ 0 := by norm_num [det, dot, cross]
  rw [c100_pointArea isAtan2_arg h1 h2 h3 hd, area_corners h1 h2 h3 hd]
  norm_num [cornerAngle, dot]

/-- (3/5, 4/5, 0) is on the edge from (1, 0, 0) to (0, 1, 0). -/
example : Vec.pointArea _root_.id Real.sqrt (fun y x => (Complex.mk x y).arg) Real.tan Real.arctan ⟨1, 0, 0⟩ ⟨0, 1, 0⟩ ⟨3 / 5, 4 / 5, 0⟩ = 0 := by
  refine (c100_collinear isAtan2_arg (by norm_num [UnitV, dot]) (by norm_num [UnitV, dot]) (by norm_num [IsZero, cross])
    ⟨by norm_num [UnitV, dot], 3 / 5, 4 / 5, by norm_num, by norm_num, ?_⟩).1
  norm_num [lin]

/-- The points (1, 0, 0), (0, 1, 0), (-3/5, -4/5, 0) go around the equator. -/
example : Vec.pointArea _root_.id Real.sqrt (fun y x => (Complex.mk x y).arg) Real.tan Real.arctan ⟨1, 0, 0⟩ ⟨0, 1, 0⟩ ⟨-3 / 5, -4 / 5, 0⟩ = 2 * Real.pi := by
  refine c100_around isAtan2_arg (by norm_num [UnitV, dot]) (by norm_num [UnitV, dot]) (by norm_num [UnitV, dot]) (by norm_num [IsZero, cross])
    (s := 3 / 5) (t := 4 / 5) (by norm_num) (by norm_num) ?_
  norm_num [lin, smul]

end Verif
