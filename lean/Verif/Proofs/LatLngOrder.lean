import Verif.Properties.LatLng
import Verif.Properties.S2Rect

/-!
# Comparing latitudes and longitudes of vectors without trigonometric functions
-/

namespace Verif
open Spec S2

/-- The latitude and longitude of a vector in exact arithmetic. -/
noncomputable def latOf (atan2 : ℝ → ℝ → ℝ) (v : Vec ℝ) : ℝ := LatLng.latitude _root_.id Real.sqrt atan2 v
noncomputable def lngOf (atan2 : ℝ → ℝ → ℝ) (v : Vec ℝ) : ℝ := LatLng.longitude _root_.id atan2 v

/-- `latOf` and `lngOf` are the angles of the direction. -/
theorem latlng_dir {atan2 : ℝ → ℝ → ℝ} (h : IsArg atan2) {v : Vec ℝ} (hv : ¬ IsZero v) :
    ∃ s, 0 < s ∧ v = smul s (direction (latOf atan2 v) (lngOf atan2 v)) ∧ -(Real.pi / 2) ≤ latOf atan2 v ∧ latOf atan2 v ≤ Real.pi / 2 ∧
      -Real.pi < lngOf atan2 v ∧ lngOf atan2 v ≤ Real.pi := by
  obtain ⟨s, φ, t, hs, p0, p1, t0, t1, e, _, e3⟩ := exists_direction hv
  obtain ⟨a1, a2⟩ := ofPoint_direction h hs p0 p1 t0 t1
  rw [← e] at a1 a2
  have hl : lngOf atan2 v = t := by
    by_cases hx : v.x = 0 ∧ v.y = 0
    · rw [e3 hx]
      show _root_.id (atan2 v.y v.x) = 0
      rw [hx.1, hx.2]
      exact h.2
    · refine a2 (lt_of_le_of_ne p0 fun hc => hx ?_) (lt_of_le_of_ne p1 fun hc => hx ?_)
      · rw [e, ← hc]; simp [smul, direction]
      · rw [e, hc]; simp [smul, direction]
  have ha : latOf atan2 v = φ := a1
  rw [hl, ha]
  exact ⟨s, hs, e, p0, p1, t0, t1⟩

theorem isLL_of {atan2 : ℝ → ℝ → ℝ} (h : IsArg atan2) {v : Vec ℝ} (hv : ¬ IsZero v) : IsLL Real.pi (latOf atan2 v) (lngOf atan2 v) := by
  obtain ⟨s, _, _, h1, h2, h3, h4⟩ := latlng_dir h hv
  exact ⟨h1, h2, h3.le, h4⟩

theorem sin_le_iff {a b : ℝ} (a1 : -(Real.pi / 2) ≤ a) (a2 : a ≤ Real.pi / 2) (b1 : -(Real.pi / 2) ≤ b) (b2 : b ≤ Real.pi / 2) :
    Real.sin a ≤ Real.sin b ↔ a ≤ b := Real.strictMonoOn_sin.le_iff_le ⟨a1, a2⟩ ⟨b1, b2⟩

/-- Latitudes of vectors of the northern hemisphere are compared by the squares of their tangents. -/
theorem lat_le {atan2 : ℝ → ℝ → ℝ} (h : IsArg atan2) {p q : Vec ℝ} (hp : ¬ IsZero p) (hq : ¬ IsZero q) (h1 : 0 ≤ p.z) (h2 : 0 ≤ q.z)
    (h3 : p.z ^ 2 * (q.x ^ 2 + q.y ^ 2) ≤ q.z ^ 2 * (p.x ^ 2 + p.y ^ 2)) : latOf atan2 p ≤ latOf atan2 q := by
  obtain ⟨s, hs, es, a1, a2, _, _⟩ := latlng_dir h hp
  obtain ⟨r, hr, er, b1, b2, _, _⟩ := latlng_dir h hq
  set φ := latOf atan2 p
  set ψ := latOf atan2 q
  set t := lngOf atan2 p
  set u := lngOf atan2 q
  rw [es] at h1 h3
  rw [er] at h2 h3
  simp only [smul, direction] at h1 h2 h3
  have k1 : 0 ≤ Real.sin φ := nonneg_of_mul_nonneg_right h1 hs
  have k2 : 0 ≤ Real.sin ψ := nonneg_of_mul_nonneg_right h2 hr
  have e1 : (r * (Real.cos ψ * Real.cos u)) ^ 2 + (r * (Real.cos ψ * Real.sin u)) ^ 2 = r ^ 2 * Real.cos ψ ^ 2 := by
    linear_combination (r * Real.cos ψ) ^ 2 * Real.sin_sq_add_cos_sq u
  have e2 : (s * (Real.cos φ * Real.cos t)) ^ 2 + (s * (Real.cos φ * Real.sin t)) ^ 2 = s ^ 2 * Real.cos φ ^ 2 := by
    linear_combination (s * Real.cos φ) ^ 2 * Real.sin_sq_add_cos_sq t
  rw [e1, e2, Real.cos_sq', Real.cos_sq'] at h3
  have h4 : (s * r) ^ 2 * (Real.sin φ ^ 2) ≤ (s * r) ^ 2 * (Real.sin ψ ^ 2) := by nlinarith
  have h5 : Real.sin φ ^ 2 ≤ Real.sin ψ ^ 2 := le_of_mul_le_mul_left h4 (by positivity)
  exact (sin_le_iff a1 a2 b1 b2).1 (abs_le_of_sq_le_sq' h5 k2).2

/-- The latitude changes its sign with the last coordinate. -/
theorem lat_flip {atan2 : ℝ → ℝ → ℝ} (h : IsArg atan2) {p q : Vec ℝ} (hp : ¬ IsZero p) (hx : q.x = p.x) (hy : q.y = p.y) (hz : q.z = -p.z) :
    latOf atan2 q = -latOf atan2 p := by
  obtain ⟨s, hs, es, a1, a2, b1, b2⟩ := latlng_dir h hp
  have e : q = smul s (direction (-latOf atan2 p) (lngOf atan2 p)) := by
    have e' : q = ⟨p.x, p.y, -p.z⟩ := by cases q; simp only at hx hy hz; rw [hx, hy, hz]
    rw [e']
    conv_lhs => rw [es]
    simp only [smul, direction, Real.cos_neg, Real.sin_neg, Vec.mk.injEq, true_and]
    ring
  have := (ofPoint_direction h hs (φ := -latOf atan2 p) (t := lngOf atan2 p) (by linarith) (by linarith) b1 b2).1
  rw [← e] at this
  exact this

theorem lat_le_south {atan2 : ℝ → ℝ → ℝ} (h : IsArg atan2) {p q : Vec ℝ} (hp : ¬ IsZero p) (hq : ¬ IsZero q) (h1 : p.z ≤ 0) (h2 : q.z ≤ 0)
    (h3 : p.z ^ 2 * (q.x ^ 2 + q.y ^ 2) ≤ q.z ^ 2 * (p.x ^ 2 + p.y ^ 2)) : latOf atan2 q ≤ latOf atan2 p := by
  have f1 := lat_flip h hp (q := ⟨p.x, p.y, -p.z⟩) rfl rfl rfl
  have f2 := lat_flip h hq (q := ⟨q.x, q.y, -q.z⟩) rfl rfl rfl
  have n1 : ¬ IsZero (⟨p.x, p.y, -p.z⟩ : Vec ℝ) := fun ⟨a, b, c⟩ => hp ⟨a, b, neg_eq_zero.1 c⟩
  have n2 : ¬ IsZero (⟨q.x, q.y, -q.z⟩ : Vec ℝ) := fun ⟨a, b, c⟩ => hq ⟨a, b, neg_eq_zero.1 c⟩
  have := lat_le h n1 n2 (neg_nonneg.2 h1) (neg_nonneg.2 h2) (by simpa using h3)
  linarith

/-- The latitude of `p` is between those of `a` and `b`, all in one hemisphere. -/
theorem lat_between {atan2 : ℝ → ℝ → ℝ} (h : IsArg atan2) {p a b : Vec ℝ} (hp : ¬ IsZero p) (ha : ¬ IsZero a) (hb : ¬ IsZero b)
    (hs : 0 ≤ a.z ∧ 0 ≤ p.z ∧ 0 ≤ b.z ∨ a.z ≤ 0 ∧ p.z ≤ 0 ∧ b.z ≤ 0) (h1 : a.z ^ 2 * (p.x ^ 2 + p.y ^ 2) ≤ p.z ^ 2 * (a.x ^ 2 + a.y ^ 2))
    (h2 : p.z ^ 2 * (b.x ^ 2 + b.y ^ 2) ≤ b.z ^ 2 * (p.x ^ 2 + p.y ^ 2)) :
    latOf atan2 a ≤ latOf atan2 p ∧ latOf atan2 p ≤ latOf atan2 b ∨ latOf atan2 b ≤ latOf atan2 p ∧ latOf atan2 p ≤ latOf atan2 a := by
  rcases hs with ⟨s1, s2, s3⟩ | ⟨s1, s2, s3⟩
  · exact Or.inl ⟨lat_le h ha hp s1 s2 h1, lat_le h hp hb s2 s3 h2⟩
  · exact Or.inr ⟨lat_le_south h hp hb s2 s3 h2, lat_le_south h ha hp s1 s2 h1⟩

/-- Angles whose sine is not negative. -/
theorem sin_nonneg_cases {x : ℝ} (h : 0 ≤ Real.sin x) (h1 : -(2 * Real.pi) < x) (h2 : x < 2 * Real.pi) :
    0 ≤ x ∧ x ≤ Real.pi ∨ x ≤ -Real.pi := by
  have hp := Real.pi_pos
  rcases lt_or_ge x 0 with hx | hx
  · right
    by_contra hc
    push Not at hc
    exact absurd (Real.sin_neg_of_neg_of_neg_pi_lt hx hc) (not_lt.2 h)
  · left
    refine ⟨hx, ?_⟩
    by_contra hc
    push Not at hc
    have := Real.sin_neg_of_neg_of_neg_pi_lt (x := x - 2 * Real.pi) (by linarith) (by linarith)
    rw [Real.sin_sub_two_pi] at this
    linarith

theorem sin_pos_cases {x : ℝ} (h : 0 < Real.sin x) (h1 : -(2 * Real.pi) < x) (h2 : x < 2 * Real.pi) :
    0 < x ∧ x < Real.pi ∨ x < -Real.pi := by
  rcases sin_nonneg_cases h.le h1 h2 with ⟨a, b⟩ | a
  · left
    refine ⟨lt_of_le_of_ne a fun hc => ?_, lt_of_le_of_ne b fun hc => ?_⟩
    · rw [← hc, Real.sin_zero] at h; exact lt_irrefl _ h
    · rw [hc, Real.sin_pi] at h; exact lt_irrefl _ h
  · right
    refine lt_of_le_of_ne a fun hc => ?_
    rw [hc, Real.sin_neg, Real.sin_pi] at h
    linarith

/-- An angle in the cone from `a` counterclockwise to `b` is in that arc. -/
theorem arc_mem {a b t : ℝ} (a1 : -Real.pi < a) (a2 : a ≤ Real.pi) (b1 : -Real.pi < b) (b2 : b ≤ Real.pi) (t1 : -Real.pi < t) (t2 : t ≤ Real.pi)
    (h1 : 0 < Real.sin (b - a)) (h2 : 0 ≤ Real.sin (t - a)) (h3 : 0 ≤ Real.sin (b - t)) : S1.Mem Real.pi ⟨a, b⟩ t := by
  have hp := Real.pi_pos
  have k1 := sin_pos_cases h1 (by linarith) (by linarith)
  have k2 := sin_nonneg_cases h2 (by linarith) (by linarith)
  have k3 := sin_nonneg_cases h3 (by linarith) (by linarith)
  unfold S1.Mem
  dsimp only
  rcases k1 with ⟨c1, c2⟩ | c1
  · rw [if_pos (by linarith)]
    rcases k2 with ⟨d1, d2⟩ | d1 <;> rcases k3 with ⟨f1, f2⟩ | f1 <;> constructor <;> linarith
  · rw [if_neg (by linarith)]
    refine ⟨fun hc => by linarith [hc.2], ?_⟩
    rcases k2 with ⟨d1, d2⟩ | d1
    · left; linarith
    · rcases k3 with ⟨f1, f2⟩ | f1
      · right; linarith
      · exfalso; linarith

/-- The two-dimensional determinant of the horizontal parts. -/
noncomputable def hdet (p q : Vec ℝ) : ℝ := p.x * q.y - p.y * q.x

theorem hdet_sin {atan2 : ℝ → ℝ → ℝ} (h : IsArg atan2) {p q : Vec ℝ} (hp : ¬ (p.x = 0 ∧ p.y = 0)) (hq : ¬ (q.x = 0 ∧ q.y = 0)) :
    ∃ k, 0 < k ∧ hdet p q = k * Real.sin (lngOf atan2 q - lngOf atan2 p) := by
  have key : ∀ v : Vec ℝ, ¬ (v.x = 0 ∧ v.y = 0) → ∃ r, 0 < r ∧ v.x = r * Real.cos (lngOf atan2 v) ∧ v.y = r * Real.sin (lngOf atan2 v) := by
    intro v hv
    obtain ⟨s, hs, es, a1, a2, _, _⟩ := latlng_dir h (v := v) (fun hz => hv ⟨hz.1, hz.2.1⟩)
    have hx : v.x = s * Real.cos (latOf atan2 v) * Real.cos (lngOf atan2 v) := by
      conv_lhs => rw [es]
      simp only [smul, direction]; ring
    have hy : v.y = s * Real.cos (latOf atan2 v) * Real.sin (lngOf atan2 v) := by
      conv_lhs => rw [es]
      simp only [smul, direction]; ring
    refine ⟨s * Real.cos (latOf atan2 v), ?_, hx, hy⟩
    refine mul_pos hs (lt_of_le_of_ne (Real.cos_nonneg_of_mem_Icc ⟨a1, a2⟩) fun hc => hv ?_)
    rw [hx, hy, ← hc]; simp
  obtain ⟨r, hr, rx, ry⟩ := key p hp
  obtain ⟨s, hs, sx, sy⟩ := key q hq
  refine ⟨r * s, by positivity, ?_⟩
  unfold hdet
  rw [rx, ry, sx, sy, Real.sin_sub]
  ring

theorem lng_range {atan2 : ℝ → ℝ → ℝ} (h : IsArg atan2) {p : Vec ℝ} (hp : ¬ (p.x = 0 ∧ p.y = 0)) : -Real.pi < lngOf atan2 p ∧ lngOf atan2 p ≤ Real.pi := by
  obtain ⟨s, _, _, _, _, h3, h4⟩ := latlng_dir h (v := p) (fun hz => hp ⟨hz.1, hz.2.1⟩)
  exact ⟨h3, h4⟩

/-- The longitude of a vector in the cone from `a` counterclockwise to `b`. -/
theorem lng_mem {atan2 : ℝ → ℝ → ℝ} (h : IsArg atan2) {a b p : Vec ℝ} (h1 : 0 < hdet a b) (h2 : 0 ≤ hdet a p) (h3 : 0 ≤ hdet p b)
    (hp : ¬ (p.x = 0 ∧ p.y = 0)) :
    S1.Mem Real.pi ⟨lngOf atan2 a, lngOf atan2 b⟩ (lngOf atan2 p) ∧ 0 < Real.sin (lngOf atan2 b - lngOf atan2 a) := by
  have na : ¬ (a.x = 0 ∧ a.y = 0) := by rintro ⟨hx, hy⟩; unfold hdet at h1; rw [hx, hy] at h1; simp at h1
  have nb : ¬ (b.x = 0 ∧ b.y = 0) := by rintro ⟨hx, hy⟩; unfold hdet at h1; rw [hx, hy] at h1; simp at h1
  obtain ⟨k1, l1, e1⟩ := hdet_sin h na nb
  obtain ⟨k2, l2, e2⟩ := hdet_sin h na hp
  obtain ⟨k3, l3, e3⟩ := hdet_sin h hp nb
  rw [e1] at h1
  rw [e2] at h2
  rw [e3] at h3
  have s1 := (mul_pos_iff_of_pos_left l1).1 h1
  exact ⟨arc_mem (lng_range h na).1 (lng_range h na).2 (lng_range h nb).1 (lng_range h nb).2 (lng_range h hp).1 (lng_range h hp).2 s1
    (nonneg_of_mul_nonneg_right h2 l2) (nonneg_of_mul_nonneg_right h3 l3), s1⟩

/-- Two longitudes less than 180 degrees apart: the interval made of them is the arc between them. -/
theorem addPoint_pair {a b : ℝ} (a1 : -Real.pi < a) (a2 : a ≤ Real.pi) (b1 : -Real.pi < b) (b2 : b ≤ Real.pi) (h : 0 < Real.sin (b - a)) :
    (((S1.Interval.empty Real.pi).addPoint Real.pi _root_.id a).addPoint Real.pi _root_.id b = ⟨a, b⟩ ∧
      ((S1.Interval.empty Real.pi).addPoint Real.pi _root_.id b).addPoint Real.pi _root_.id a = ⟨a, b⟩) ∧
    S1.Interval.fromPointPair Real.pi _root_.id a b = ⟨a, b⟩ ∧ S1.Interval.fromPointPair Real.pi _root_.id b a = ⟨a, b⟩ := by
  have hp := Real.pi_pos
  have k1 := sin_pos_cases h (by linarith) (by linarith)
  have e1 : ∀ x : ℝ, -Real.pi < x → x ≤ Real.pi → (S1.Interval.empty Real.pi).addPoint Real.pi _root_.id x = ⟨x, x⟩ := by
    intro x x1 x2
    have hx : ¬ |x| > Real.pi := not_lt.2 (abs_le.2 ⟨x1.le, x2⟩)
    have hx' : x ≠ -Real.pi := x1.ne'
    unfold S1.Interval.addPoint S1.Interval.fastContains S1.Interval.isInverted S1.Interval.isEmpty S1.Interval.toPi S1.Interval.empty
    rw [if_neg hx, if_neg hx']
    simp [show -Real.pi < Real.pi by linarith]
  rw [e1 a a1 a2, e1 b b1 b2]
  have ha : ¬ |a| > Real.pi := not_lt.2 (abs_le.2 ⟨a1.le, a2⟩)
  have hb : ¬ |b| > Real.pi := not_lt.2 (abs_le.2 ⟨b1.le, b2⟩)
  have ha' : a ≠ -Real.pi := a1.ne'
  have hb' : b ≠ -Real.pi := b1.ne'
  have hab : a ≠ b := by rintro rfl; rw [sub_self, Real.sin_zero] at h; exact lt_irrefl _ h
  have d1 : S1.positiveDistance Real.pi _root_.id a b < Real.pi := by
    unfold S1.positiveDistance
    simp only [_root_.id]
    rcases k1 with ⟨c1, c2⟩ | c1
    · rw [if_pos (by linarith)]; linarith
    · rw [if_neg (by linarith)]; linarith
  have d2 : Real.pi < S1.positiveDistance Real.pi _root_.id b a := by
    unfold S1.positiveDistance
    simp only [_root_.id]
    rcases k1 with ⟨c1, c2⟩ | c1
    · rw [if_neg (by linarith)]; linarith
    · rw [if_pos (by linarith)]; linarith
  have f1 : (⟨a, a⟩ : S1.Interval ℝ).fastContains Real.pi b = false := by
    unfold S1.Interval.fastContains S1.Interval.isInverted
    simp only [gt_iff_lt, lt_irrefl, decide_false, Bool.false_eq_true, if_false, Bool.and_eq_false_iff, decide_eq_false_iff_not, not_le]
    rcases lt_or_gt_of_ne hab with h' | h'
    · right; exact h'
    · left; exact h'
  have f2 : (⟨b, b⟩ : S1.Interval ℝ).fastContains Real.pi a = false := by
    unfold S1.Interval.fastContains S1.Interval.isInverted
    simp only [gt_iff_lt, lt_irrefl, decide_false, Bool.false_eq_true, if_false, Bool.and_eq_false_iff, decide_eq_false_iff_not, not_le]
    rcases lt_or_gt_of_ne hab with h' | h'
    · left; exact h'
    · right; exact h'
  have g : ∀ x : ℝ, (⟨x, x⟩ : S1.Interval ℝ).isEmpty Real.pi = false := by
    intro x
    rw [← Bool.not_eq_true, S1.isEmpty_iff]
    rintro ⟨x1, x2⟩
    dsimp only at x1 x2
    linarith
  refine ⟨⟨?_, ?_⟩, ?_, ?_⟩
  · unfold S1.Interval.addPoint S1.Interval.toPi
    rw [if_neg hb, if_neg hb']
    dsimp only
    rw [f1, g]
    simp only [Bool.false_eq_true, if_false]
    rw [if_neg (by linarith)]
  · unfold S1.Interval.addPoint S1.Interval.toPi
    rw [if_neg ha, if_neg ha']
    dsimp only
    rw [f2, g]
    simp only [Bool.false_eq_true, if_false]
    rw [if_pos (by linarith)]
  · unfold S1.Interval.fromPointPair S1.Interval.toPi
    rw [if_neg ha', if_neg hb']
    dsimp only
    rw [if_pos d1.le]
  · unfold S1.Interval.fromPointPair S1.Interval.toPi
    rw [if_neg ha', if_neg hb']
    dsimp only
    rw [if_neg (not_le.2 d2)]

end Verif
