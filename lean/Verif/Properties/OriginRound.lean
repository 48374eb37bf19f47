import Verif.Properties.FaceRound
import Verif.Proofs.LatLngRound

/-!
# C119: `move_origin_to_valid_face` with rounding

The face on which `face_segments` starts (and ends) is moved to an adjacent one when the computed normal of the edge misses the face of the point.
Here it is proved that this moves the point only within the error tolerance, for every normal.
-/

namespace Verif
open Spec EdgeClip

/-- Rounding and clamping a coordinate. -/
theorem clampNear {m P c t : ℝ} (m0 : 0 < m) (hc : |c| ≤ m) (h1 : m * (1 - 1 / 2 ^ 49) ≤ P) (h2 : P ≤ m) (ht : t * P = c) :
    |c - m * max (-1) (min 1 (rne t))| ≤ m / 2 ^ 48 ∧ |c - m * rne t| ≤ m / 2 ^ 48 := by
  have P0 : 0 < P := lt_of_lt_of_le (by positivity) h1
  have e0 := eps53_pos
  have e1 := eps53_le
  have τ1 := tau200_le
  obtain ⟨y, hy⟩ : ∃ y, y = c / m := ⟨_, rfl⟩
  have hcy : c = m * y := by rw [hy]; field_simp
  have y1 : |y| ≤ 1 := by rw [hy, abs_div, abs_of_pos m0]; exact (div_le_one m0).2 hc
  have k49 : (1 : ℝ) / 2 ^ 49 = 16 * eps53 := by unfold eps53; norm_num
  have k48 : m / 2 ^ 48 = m * (32 * eps53) := by unfold eps53; ring
  rw [k49] at h1
  rw [k48]
  have ty : |t - y| ≤ 1601 / 100 * eps53 := by
    have e : (t - y) * P = y * (m - P) := by rw [sub_mul, ht, hcy]; ring
    have : |t - y| * P ≤ 16 * eps53 * m := by
      rw [← abs_of_pos P0, ← abs_mul, e, abs_mul]
      calc |y| * |m - P| ≤ 1 * |m - P| := mul_le_mul_of_nonneg_right y1 (abs_nonneg _)
        _ ≤ _ := by rw [one_mul, abs_of_nonneg (by linarith)]; linarith
    have q : 16 * eps53 * m ≤ 1601 / 100 * eps53 * P := by
      have := mul_le_mul_of_nonneg_left h1 e0.le
      have s1 : eps53 * (eps53 * m) ≤ 1 / 10 ^ 15 * (eps53 * m) := mul_le_mul_of_nonneg_right e1 (by positivity)
      nlinarith
    exact le_of_mul_le_mul_right (this.trans q) P0
  have t1 : |t| ≤ 101 / 100 := by
    have := abs_sub_abs_le_abs_sub t y
    linarith
  have f := fl_err rounding_rne (x := t) (by linarith)
  have f2 := mul_le_mul_of_nonneg_right t1 e0.le
  have ry : |rne t - y| ≤ 32 * eps53 := by
    have := abs_add_le (rne t - t) (t - y)
    rw [sub_add_sub_cancel] at this
    linarith
  have fin : ∀ z, |z - y| ≤ 32 * eps53 → |c - m * z| ≤ m * (32 * eps53) := by
    intro z hz
    rw [hcy, ← mul_sub, abs_mul, abs_of_pos m0, abs_sub_comm]
    exact mul_le_mul_of_nonneg_left hz m0.le
  refine ⟨fin _ ?_, fin _ ry⟩
  rw [abs_le] at y1 ry ⊢
  constructor
  · rcases le_total 1 (rne t) with h | h
    · rw [min_eq_left h]
      have := le_max_right (-1 : ℝ) 1
      linarith
    · rw [min_eq_right h]
      have := le_max_right (-1 : ℝ) (rne t)
      linarith
  · have : max (-1) (min 1 (rne t)) ≤ max (-1) (rne t) := max_le_max le_rfl (min_le_right _ _)
    rcases le_total (-1) (rne t) with h | h
    · rw [max_eq_right h] at this; linarith
    · rw [max_eq_left h] at this; linarith

theorem clampNear_neg {m P c t : ℝ} (m0 : 0 < m) (hc : |c| ≤ m) (h1 : m * (1 - 1 / 2 ^ 49) ≤ P) (h2 : P ≤ m) (ht : t * P = -c) :
    |c - m * -max (-1) (min 1 (rne t))| ≤ m / 2 ^ 48 ∧ |c - m * -rne t| ≤ m / 2 ^ 48 := by
  have := clampNear (c := -c) m0 (by rw [abs_neg]; exact hc) h1 h2 ht
  have e : ∀ z, |c - m * -z| = |-c - m * z| := fun z => by rw [← abs_neg]; congr 1; ring
  rw [e, e]
  exact this

/-- A coordinate that is computed close to the border of the face. -/
theorem border_near {m c t s2 : ℝ} (h2 : 7 / 5 ≤ s2) (m0 : 0 < m) (ht : |t| * m = |c|) (h : rne (1 - faceClipErrorUVCoord rne s2) < |rne t|) :
    m * (1 - 1 / 2 ^ 49) ≤ |c| := by
  have h1 := lt_of_le_of_lt (maxSafe_ge h2) h
  have hm : rne (1 - 1 / 2 ^ 49 : ℝ) = 1 - 1 / 2 ^ 49 := rne_exact (m := 2 ^ 49 - 1) (k := -49) (by norm_num) (by norm_num) (by norm_num)
  have ab : |rne t| = rne |t| := by
    rcases le_total 0 t with h | h
    · rw [abs_of_nonneg h, abs_of_nonneg (rne_nonneg h)]
    · rw [abs_of_nonpos h, rne_odd]
      have := rne_mono h
      rw [rne_zero] at this
      rw [abs_of_nonpos this]
  rw [ab] at h1
  have : 1 - 1 / 2 ^ 49 ≤ |t| := by
    by_contra hc
    have := rne_mono (not_le.1 hc).le
    rw [hm] at this
    linarith
  rw [← ht, mul_comm]
  exact mul_le_mul_of_nonneg_right this m0.le

theorem border_one {m c : ℝ} (h1 : m * (1 - 1 / 2 ^ 49) ≤ |c|) (h2 : |c| ≤ m) : (0 < c → |c - m * 1| ≤ m / 2 ^ 48) ∧ (c < 0 → |c - m * -1| ≤ m / 2 ^ 48) := by
  have e0 := eps53_pos
  have k49 : (1 : ℝ) / 2 ^ 49 = 16 * eps53 := by unfold eps53; norm_num
  have k48 : m / 2 ^ 48 = m * (32 * eps53) := by unfold eps53; ring
  have m0 : 0 ≤ m := (abs_nonneg c).trans h2
  have := mul_nonneg m0 e0.le
  rw [k49] at h1
  rw [k48]
  constructor
  · intro h
    rw [abs_of_pos h] at h1 h2
    rw [abs_le]
    constructor <;> linarith
  · intro h
    rw [abs_of_neg h] at h1 h2
    rw [abs_le]
    constructor <;> linarith

theorem clamp_one (t : ℝ) : |max (-1) (min 1 t)| ≤ 1 := by
  rw [abs_le]
  exact ⟨le_max_left _ _, max_le (by norm_num) (min_le_left _ _)⟩

theorem rne_abs_one {t : ℝ} (h : |t| ≤ 1) : |rne t| ≤ 1 := by
  rw [abs_le] at h ⊢
  have a := rne_mono h.1
  have b := rne_mono h.2
  rw [rne_odd, rne_one] at a
  rw [rne_one] at b
  exact ⟨a, b⟩

namespace Spec

/-- The point `(u,v)` of the face is in the direction of `a`, up to `2^-48` of the largest component of `a`. -/
def FaceDir (a : Vec ℝ) (f : Nat) (p : R2.Point ℝ) : Prop :=
  |p.x| ≤ 1 ∧ |p.y| ≤ 1 ∧ ∃ q, faceUVtoXYZ f p.x p.y = some q ∧ ∃ m, 0 < m ∧ (|a.x| ≤ m ∧ |a.y| ≤ m ∧ |a.z| ≤ m) ∧ (|a.x| = m ∨ |a.y| = m ∨ |a.z| = m) ∧
    |a.x - m * q.x| ≤ m / 2 ^ 48 ∧ |a.y - m * q.y| ≤ m / 2 ^ 48 ∧ |a.z - m * q.z| ≤ m / 2 ^ 48

end Spec

/-- The unmoved point. -/
theorem faceDir_keep {a : Vec ℝ} (ha : ¬ IsZero a) : ∃ u v, xyzToFaceUV rne a = some (vecFace a, u, v) ∧ FaceDir a (vecFace a) ⟨u, v⟩ := by
  have zz : ∀ m : ℝ, m - m * 1 = 0 := fun m => by ring
  have zn : ∀ m : ℝ, m - -m * -1 = 0 := fun m => by ring
  have dv : ∀ c m : ℝ, 0 < m → |c| ≤ m → |c / m| ≤ 1 ∧ |c / -m| ≤ 1 ∧ |-c / m| ≤ 1 ∧ |-c / -m| ≤ 1 := by
    intro c m m0 h
    have : |c| / m ≤ 1 := (div_le_one m0).2 h
    simp only [abs_div, abs_neg, abs_of_pos m0]
    exact ⟨this, this, this, this⟩
  have o : ∀ m : ℝ, 0 < m → m * (1 - 1 / 2 ^ 49) ≤ m := fun m h => by
    have : m * (1 - 1 / 2 ^ 49) ≤ m * 1 := mul_le_mul_of_nonneg_left (by norm_num) h.le
    linarith
  have K : ∀ m c t : ℝ, 0 < m → |c| ≤ m → t * m = c → |c - m * rne t| ≤ m / 2 ^ 48 := fun m c t h1 h2 h3 => (clampNear h1 h2 (o m h1) le_rfl h3).2
  have N : ∀ m c t : ℝ, 0 < m → |c| ≤ m → t * m = -c → |c - m * -rne t| ≤ m / 2 ^ 48 := fun m c t h1 h2 h3 => (clampNear_neg h1 h2 (o m h1) le_rfl h3).2
  have Z : ∀ m : ℝ, 0 < m → |m - m * 1| ≤ m / 2 ^ 48 := fun m h => by rw [mul_one, sub_self, abs_zero]; positivity
  have Y : ∀ c m : ℝ, 0 < m → c = -m → |c - m * -1| ≤ m / 2 ^ 48 := fun c m h e => by rw [e, mul_neg, mul_one, sub_self, abs_zero]; positivity
  unfold xyzToFaceUV
  rcases vecFace_cases a ha with ⟨e, h1, h2, h3⟩ | ⟨e, h1, h2, h3⟩ | ⟨e, h1, h2, h3⟩ | ⟨e, h1, h2, h3⟩ | ⟨e, h1, h2, h3⟩ | ⟨e, h1, h2, h3⟩ <;>
    rw [e]
  · rw [abs_of_pos h1] at h2 h3
    exact ⟨_, _, rfl, rne_abs_one (dv _ _ h1 h2).1, rne_abs_one (dv _ _ h1 h3).1, _, rfl, a.x, h1, ⟨(abs_of_pos h1).le, h2, h3⟩, Or.inl (abs_of_pos h1),
      Z _ h1, K _ _ _ h1 h2 (by field_simp), K _ _ _ h1 h3 (by field_simp)⟩
  · rw [abs_of_pos h1] at h2 h3
    exact ⟨_, _, rfl, rne_abs_one (dv _ _ h1 h2).2.2.1, rne_abs_one (dv _ _ h1 h3).1, _, rfl, a.y, h1, ⟨h2, (abs_of_pos h1).le, h3⟩, Or.inr (Or.inl (abs_of_pos h1)),
      N _ _ _ h1 h2 (by field_simp), Z _ h1, K _ _ _ h1 h3 (by field_simp)⟩
  · rw [abs_of_pos h1] at h2 h3
    exact ⟨_, _, rfl, rne_abs_one (dv _ _ h1 h2).2.2.1, rne_abs_one (dv _ _ h1 h3).2.2.1, _, rfl, a.z, h1, ⟨h2, h3, (abs_of_pos h1).le⟩, Or.inr (Or.inr (abs_of_pos h1)),
      N _ _ _ h1 h2 (by field_simp), N _ _ _ h1 h3 (by field_simp), Z _ h1⟩
  · rw [abs_of_neg h1] at h2 h3
    obtain ⟨m, hm⟩ : ∃ m, m = -a.x := ⟨_, rfl⟩
    have ax : a.x = -m := by linarith
    rw [← hm] at h2 h3
    have m0 : 0 < m := by linarith
    refine ⟨_, _, rfl, rne_abs_one ?_, rne_abs_one ?_, _, rfl, m, m0, ⟨by rw [ax, abs_neg, abs_of_pos m0], h2, h3⟩, Or.inl (by rw [ax, abs_neg, abs_of_pos m0]),
      Y _ _ m0 ax, N _ _ _ m0 h2 ?_, N _ _ _ m0 h3 ?_⟩ <;> rw [ax]
    · exact (dv _ _ m0 h3).2.1
    · exact (dv _ _ m0 h2).2.1
    · field_simp
    · field_simp
  · rw [abs_of_neg h1] at h2 h3
    obtain ⟨m, hm⟩ : ∃ m, m = -a.y := ⟨_, rfl⟩
    have ax : a.y = -m := by linarith
    rw [← hm] at h2 h3
    have m0 : 0 < m := by linarith
    refine ⟨_, _, rfl, rne_abs_one ?_, rne_abs_one ?_, _, rfl, m, m0, ⟨h2, by rw [ax, abs_neg, abs_of_pos m0], h3⟩, Or.inr (Or.inl (by rw [ax, abs_neg, abs_of_pos m0])),
      K _ _ _ m0 h2 ?_, Y _ _ m0 ax, N _ _ _ m0 h3 ?_⟩ <;> rw [ax]
    · exact (dv _ _ m0 h3).2.1
    · exact (dv _ _ m0 h2).2.2.2
    · field_simp
    · field_simp
  · rw [abs_of_neg h1] at h2 h3
    obtain ⟨m, hm⟩ : ∃ m, m = -a.z := ⟨_, rfl⟩
    have ax : a.z = -m := by linarith
    rw [← hm] at h2 h3
    have m0 : 0 < m := by linarith
    refine ⟨_, _, rfl, rne_abs_one ?_, rne_abs_one ?_, _, rfl, m, m0, ⟨h2, h3, by rw [ax, abs_neg, abs_of_pos m0]⟩, Or.inr (Or.inr (by rw [ax, abs_neg, abs_of_pos m0])),
      K _ _ _ m0 h2 ?_, K _ _ _ m0 h3 ?_, Y _ _ m0 ax⟩ <;> rw [ax]
    · exact (dv _ _ m0 h3).2.2.2
    · exact (dv _ _ m0 h2).2.2.2
    · field_simp
    · field_simp

/-- The coordinates on a face are quotients of coordinates. -/
theorem validFace_eq {f : Nat} (hf : f < 6) (a : Vec ℝ) :
    validFaceXYZtoUV rne f a = some (rne ((uvw f a).x / (uvw f a).z), rne ((uvw f a).y / (uvw f a).z)) := by
  interval_cases f <;> simp only [validFaceXYZtoUV, uvw, div_neg, neg_div, neg_neg]

/-- The clamped coordinates on a face whose normal is almost as close as that of the face of the point. -/
theorem faceDir_clamp {a : Vec ℝ} {m : ℝ} (m0 : 0 < m) (hb : |a.x| ≤ m ∧ |a.y| ≤ m ∧ |a.z| ≤ m) (he : |a.x| = m ∨ |a.y| = m ∨ |a.z| = m) {f : Nat} (hf : f < 6)
    (hP : m * (1 - 1 / 2 ^ 49) ≤ (uvw f a).z) : ∃ x y, validFaceXYZtoUV rne f a = some (x, y) ∧ FaceDir a f ⟨max (-1) (min 1 x), max (-1) (min 1 y)⟩ := by
  have P0 : 0 < (uvw f a).z := lt_of_lt_of_le (by positivity) hP
  refine ⟨_, _, validFace_eq hf a, clamp_one _, clamp_one _, ?_⟩
  obtain ⟨b1, b2, b3⟩ := hb
  have K : ∀ P c d : ℝ, m * (1 - 1 / 2 ^ 49) ≤ P → P ≤ m → |c| ≤ m → d = c → |c - m * max (-1) (min 1 (rne (d / P)))| ≤ m / 2 ^ 48 := by
    intro P c d h1 h2 h3 h4
    have : 0 < P := lt_of_lt_of_le (by positivity) h1
    exact (clampNear m0 h3 h1 h2 (by rw [h4]; field_simp)).1
  have N : ∀ P c d : ℝ, m * (1 - 1 / 2 ^ 49) ≤ P → P ≤ m → |c| ≤ m → d = -c → |c - m * -max (-1) (min 1 (rne (d / P)))| ≤ m / 2 ^ 48 := by
    intro P c d h1 h2 h3 h4
    have : 0 < P := lt_of_lt_of_le (by positivity) h1
    exact (clampNear_neg m0 h3 h1 h2 (by rw [h4]; field_simp)).1
  have ap : ∀ c : ℝ, 0 < c → m * (1 - 1 / 2 ^ 49) ≤ c → |c| ≤ m → |c - m * 1| ≤ m / 2 ^ 48 :=
    fun c h1 h2 h3 => (border_one (by rw [abs_of_pos h1]; exact h2) h3).1 h1
  have an : ∀ c : ℝ, 0 < -c → m * (1 - 1 / 2 ^ 49) ≤ -c → |c| ≤ m → |c - m * -1| ≤ m / 2 ^ 48 :=
    fun c h1 h2 h3 => (border_one (by rw [abs_of_neg (neg_pos.1 h1)]; exact h2) h3).2 (neg_pos.1 h1)
  interval_cases f <;> simp only [uvw] at hP P0
  · have h := (abs_of_pos P0) ▸ b1
    exact ⟨_, rfl, m, m0, ⟨b1, b2, b3⟩, he, ap _ P0 hP b1, K _ _ _ hP h b2 rfl, K _ _ _ hP h b3 rfl⟩
  · have h := (abs_of_pos P0) ▸ b2
    exact ⟨_, rfl, m, m0, ⟨b1, b2, b3⟩, he, N _ _ _ hP h b1 rfl, ap _ P0 hP b2, K _ _ _ hP h b3 rfl⟩
  · have h := (abs_of_pos P0) ▸ b3
    exact ⟨_, rfl, m, m0, ⟨b1, b2, b3⟩, he, N _ _ _ hP h b1 rfl, N _ _ _ hP h b2 rfl, ap _ P0 hP b3⟩
  · have h : -a.x ≤ m := (neg_le_abs _).trans b1
    exact ⟨_, rfl, m, m0, ⟨b1, b2, b3⟩, he, an _ P0 hP b1, N _ _ _ hP h b2 rfl, N _ _ _ hP h b3 rfl⟩
  · have h : -a.y ≤ m := (neg_le_abs _).trans b2
    exact ⟨_, rfl, m, m0, ⟨b1, b2, b3⟩, he, K _ _ _ hP h b1 rfl, an _ P0 hP b2, N _ _ _ hP h b3 rfl⟩
  · have h : -a.z ≤ m := (neg_le_abs _).trans b3
    exact ⟨_, rfl, m, m0, ⟨b1, b2, b3⟩, he, K _ _ _ hP h b1 rfl, K _ _ _ hP h b2 rfl, an _ P0 hP b3⟩

/-- The neighbours of a face and their normals. -/
theorem nbr_normal {f : Nat} (hf : f < 6) (a : Vec ℝ) :
    (∃ g, uvwFace f 0 1 = some g ∧ g < 6 ∧ (uvw g a).z = (uvw f a).x) ∧ (∃ g, uvwFace f 0 0 = some g ∧ g < 6 ∧ (uvw g a).z = -(uvw f a).x) ∧
    (∃ g, uvwFace f 1 1 = some g ∧ g < 6 ∧ (uvw g a).z = (uvw f a).y) ∧ (∃ g, uvwFace f 1 0 = some g ∧ g < 6 ∧ (uvw g a).z = -(uvw f a).y) := by
  interval_cases f <;> refine ⟨⟨_, rfl, by norm_num, ?_⟩, ⟨_, rfl, by norm_num, ?_⟩, ⟨_, rfl, by norm_num, ?_⟩, ⟨_, rfl, by norm_num, ?_⟩⟩ <;>
    simp only [uvw, neg_neg]

/-- **C119.** `move_origin_to_valid_face` moves a point at most to an adjacent face and by at most `2^-48` of its largest component, whatever the
normal of the edge is; the result is a point of its face. -/
theorem c119_origin (sqrt : ℝ → ℝ) (neg : ℝ → Bool) {sqrt2 : ℝ} (h2 : 7 / 5 ≤ sqrt2) {a : Vec ℝ} (ha : ¬ IsZero a) (ab : Vec ℝ) :
    ∃ u v f p, xyzToFaceUV rne a = some (vecFace a, u, v) ∧ moveOrigin rne sqrt neg sqrt2 (vecFace a) a ab ⟨u, v⟩ = some (f, p) ∧ FaceDir a f p := by
  obtain ⟨f6, C1, C2, C3, C4, C5⟩ := vecFace_cone ha
  obtain ⟨u, v, e, D⟩ := faceDir_keep ha
  have D' := D
  obtain ⟨-, -, -, -, m, m0, hb, he, -⟩ := D'
  refine ⟨u, v, ?_⟩
  have ev := validFace_eq f6 a
  have euv : u = rne ((uvw (vecFace a) a).x / (uvw (vecFace a) a).z) ∧ v = rne ((uvw (vecFace a) a).y / (uvw (vecFace a) a).z) := by
    unfold xyzToFaceUV at e
    simp only [ev, Option.bind_eq_bind, Option.bind_some, Option.some.injEq, Prod.mk.injEq, true_and] at e
    exact ⟨e.1.symm, e.2.symm⟩
  have em : (uvw (vecFace a) a).z = m := by
    obtain ⟨b1, b2, b3⟩ := hb
    have := abs_le.1 b1
    have := abs_le.1 b2
    have := abs_le.1 b3
    have cx : ∀ c d : ℝ, |c| = d → c ≤ d ∧ -c ≤ d ∧ (d = c ∨ d = -c) := fun c d h => by
      refine ⟨h ▸ le_abs_self c, h ▸ neg_le_abs c, ?_⟩
      rw [← h]; exact abs_choice c
    generalize vecFace a = f at *
    refine le_antisymm ?_ ?_
    · interval_cases f <;> simp only [uvw] <;> linarith
    · rcases he with h | h | h <;> obtain ⟨-, -, h | h⟩ := cx _ _ h <;> interval_cases f <;> simp only [uvw] at C1 C2 C3 C4 C5 ⊢ <;> linarith
  by_cases hfast : max |u| |v| ≤ rne (1 - faceClipErrorUVCoord rne sqrt2)
  · refine ⟨_, _, e, ?_, D⟩
    unfold moveOrigin
    exact if_pos hfast
  unfold moveOrigin
  rw [if_neg hfast, uvw_eq f6]
  simp only [Option.bind_eq_bind, Option.bind_some]
  have ex : ∀ s t : ℝ, ∃ q, faceUVtoXYZ (vecFace a) s t = some q := by
    intro s t
    generalize vecFace a = f at f6
    interval_cases f <;> exact ⟨_, rfl⟩
  obtain ⟨q, hq⟩ := ex (exitPoint rne (uvw (vecFace a) ab) (exitAxis rne neg (uvw (vecFace a) ab))).x
    (exitPoint rne (uvw (vecFace a) ab) (exitAxis rne neg (uvw (vecFace a) ab))).y
  rw [hq]
  simp only [Option.bind_some]
  split_ifs with h1 h3 h4 h4
  · exact ⟨_, _, e, rfl, D⟩
  all_goals
    rw [em] at euv
    obtain ⟨n1, n2, n3, n4⟩ := nbr_normal f6 a
    rw [not_le] at hfast
  -- the computed coordinate is close to one
  · have hu : rne (1 - faceClipErrorUVCoord rne sqrt2) < |u| := by rwa [max_eq_left h3] at hfast
    have up : 0 < (uvw (vecFace a) a).x := by
      by_contra hc
      have := rne_mono (div_nonpos_of_nonpos_of_nonneg (not_lt.1 hc) m0.le)
      rw [rne_zero, ← euv.1] at this
      linarith
    rw [euv.1] at hu
    have B := border_near (c := (uvw (vecFace a) a).x) h2 m0 (by rw [abs_div, abs_of_pos m0]; field_simp) hu
    rw [abs_of_pos up] at B
    obtain ⟨g, hg, g6, gz⟩ := n1
    obtain ⟨x, y, k1, k2⟩ := faceDir_clamp m0 hb he g6 (gz ▸ B)
    exact ⟨_, _, e, by rw [hg, Option.bind_some, k1, Option.bind_some], k2⟩
  · have hu : rne (1 - faceClipErrorUVCoord rne sqrt2) < |u| := by rwa [max_eq_left h3] at hfast
    have ms := maxSafe_ge h2
    have up : (uvw (vecFace a) a).x < 0 := by
      by_contra hc
      have := rne_mono (div_nonneg (not_lt.1 hc) m0.le)
      rw [rne_zero, ← euv.1] at this
      have hz : u = 0 := le_antisymm (not_lt.1 h4) this
      rw [hz, abs_zero] at hu
      norm_num at ms
      linarith
    rw [euv.1] at hu
    have B := border_near (c := (uvw (vecFace a) a).x) h2 m0 (by rw [abs_div, abs_of_pos m0]; field_simp) hu
    rw [abs_of_neg up] at B
    obtain ⟨g, hg, g6, gz⟩ := n2
    obtain ⟨x, y, k1, k2⟩ := faceDir_clamp m0 hb he g6 (gz ▸ B)
    exact ⟨_, _, e, by rw [hg, Option.bind_some, k1, Option.bind_some], k2⟩
  · have hu : rne (1 - faceClipErrorUVCoord rne sqrt2) < |v| := by rwa [max_eq_right (not_le.1 h3).le] at hfast
    have up : 0 < (uvw (vecFace a) a).y := by
      by_contra hc
      have := rne_mono (div_nonpos_of_nonpos_of_nonneg (not_lt.1 hc) m0.le)
      rw [rne_zero, ← euv.2] at this
      linarith
    rw [euv.2] at hu
    have B := border_near (c := (uvw (vecFace a) a).y) h2 m0 (by rw [abs_div, abs_of_pos m0]; field_simp) hu
    rw [abs_of_pos up] at B
    obtain ⟨g, hg, g6, gz⟩ := n3
    obtain ⟨x, y, k1, k2⟩ := faceDir_clamp m0 hb he g6 (gz ▸ B)
    exact ⟨_, _, e, by rw [hg, Option.bind_some, k1, Option.bind_some], k2⟩
  · have hu : rne (1 - faceClipErrorUVCoord rne sqrt2) < |v| := by rwa [max_eq_right (not_le.1 h3).le] at hfast
    have ms := maxSafe_ge h2
    have up : (uvw (vecFace a) a).y < 0 := by
      by_contra hc
      have := rne_mono (div_nonneg (not_lt.1 hc) m0.le)
      rw [rne_zero, ← euv.2] at this
      have hz : v = 0 := le_antisymm (not_lt.1 h4) this
      rw [hz, abs_zero] at hu
      norm_num at ms
      linarith
    rw [euv.2] at hu
    have B := border_near (c := (uvw (vecFace a) a).y) h2 m0 (by rw [abs_div, abs_of_pos m0]; field_simp) hu
    rw [abs_of_neg up] at B
    obtain ⟨g, hg, g6, gz⟩ := n4
    obtain ⟨x, y, k1, k2⟩ := faceDir_clamp m0 hb he g6 (gz ▸ B)
    exact ⟨_, _, e, by rw [hg, Option.bind_some, k1, Option.bind_some], k2⟩

/-- **C119.** The case that moves the point does occur: a normal that misses the face of the point `(1, 1, 0)` gives the face 1. -/
theorem c119_moves (sqrt : ℝ → ℝ) (neg : ℝ → Bool) {sqrt2 : ℝ} (h2 : 7 / 5 ≤ sqrt2) (h3 : sqrt2 ≤ 3 / 2) :
    moveOrigin rne sqrt neg sqrt2 0 ⟨1, 1, 0⟩ ⟨1, 0, 0⟩ ⟨1, 0⟩ = some (1, ⟨-1, 0⟩) := by
  have h1 : (1 : ℝ) / 2 ≤ rne (1 / sqrt2) := by
    have := rne_mono (show (1 : ℝ) / 2 ≤ 1 / sqrt2 from one_div_le_one_div_of_le (by linarith) (by linarith))
    rwa [rne_exact (x := (1 : ℝ) / 2) (m := 1) (k := -1) (by norm_num) (by norm_num) (by norm_num)] at this
  have h9 : (4 : ℝ) ≤ rne (9 * rne (1 / sqrt2)) := by
    have := rne_mono (show (4 : ℝ) ≤ 9 * rne (1 / sqrt2) by linarith)
    rwa [rne_exact (x := (4 : ℝ)) (m := 4) (k := 0) (by norm_num) (by norm_num) (by norm_num)] at this
  have he : (1 : ℝ) / 2 ^ 53 ≤ Predicates.dblEpsilon rne := by
    unfold Predicates.dblEpsilon
    have := rne_mono (show (1 : ℝ) / 2 ^ 53 ≤ 2220446049250313 / 10 ^ 31 by norm_num)
    rwa [rne_exact (x := (1 : ℝ) / 2 ^ 53) (m := 1) (k := -53) (by norm_num) (by norm_num) (by norm_num)] at this
  have hc : (1 : ℝ) / 2 ^ 51 ≤ faceClipErrorUVCoord rne sqrt2 := by
    unfold faceClipErrorUVCoord
    have := rne_mono (show (1 : ℝ) / 2 ^ 51 ≤ rne (9 * rne (1 / sqrt2)) * Predicates.dblEpsilon rne from
      calc (1 : ℝ) / 2 ^ 51 = 4 * (1 / 2 ^ 53) := by norm_num
        _ ≤ _ := mul_le_mul h9 he (by norm_num) (by linarith))
    rwa [rne_exact (x := (1 : ℝ) / 2 ^ 51) (m := 1) (k := -51) (by norm_num) (by norm_num) (by norm_num)] at this
  have hm : rne (1 - 1 / 2 ^ 51 : ℝ) = 1 - 1 / 2 ^ 51 := rne_exact (m := 2 ^ 51 - 1) (k := -51) (by norm_num) (by norm_num) (by norm_num)
  have hs := rne_mono (show 1 - faceClipErrorUVCoord rne sqrt2 ≤ 1 - 1 / 2 ^ 51 by linarith)
  rw [hm] at hs
  unfold moveOrigin
  rw [if_neg (by
    rw [not_le]
    refine lt_of_lt_of_le (lt_of_le_of_lt hs ?_) (le_max_left _ _)
    norm_num)]
  have hi : intersectsFace rne (⟨0, 0, 1⟩ : Vec ℝ) = false := by
    unfold intersectsFace
    simp [rne_one]
  simp only [faceXYZtoUVW, faceUVtoXYZ, Option.bind_eq_bind, Option.bind_some, hi, Bool.false_eq_true, false_and, if_false]
  have hn : rne (-1 : ℝ) = -1 := by rw [rne_odd, rne_one]
  norm_num [uvwFace, faceUVWFaces, validFaceXYZtoUV, rne_zero, rne_one, hn]

/-- A point on the border between two faces, with a normal that misses the face. -/
example : ∃ u v f p, xyzToFaceUV rne (⟨3, 3, 1⟩ : Vec ℝ) = some (vecFace (⟨3, 3, 1⟩ : Vec ℝ), u, v) ∧
    moveOrigin rne Real.sqrt (fun x => decide (x < 0)) (3 / 2) (vecFace (⟨3, 3, 1⟩ : Vec ℝ)) ⟨3, 3, 1⟩ ⟨1, 0, 0⟩ ⟨u, v⟩ = some (f, p) ∧
    FaceDir ⟨3, 3, 1⟩ f p :=
  c119_origin Real.sqrt _ (by norm_num) (by rintro ⟨h, -⟩; norm_num at h) _

end Verif
