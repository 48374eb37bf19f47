import Verif.Model.LatLng
import Verif.Properties.EdgeInterpolate
import Verif.Properties.Angle
import Mathlib.Analysis.Real.Pi.Bounds

/-!
# Latitudes and longitudes of points: C86
-/

namespace Verif
namespace Spec

/-- `atan2 y x` is the polar angle of the point `(x, y)`, above `-π` and at most `π`; for the origin it is zero. -/
def IsArg (atan2 : ℝ → ℝ → ℝ) : Prop :=
  (∀ r t, 0 < r → -Real.pi < t → t ≤ Real.pi → atan2 (r * Real.sin t) (r * Real.cos t) = t) ∧ atan2 0 0 = 0

/-- The direction of latitude `φ` and longitude `t`. -/
noncomputable def direction (φ t : ℝ) : Vec ℝ := ⟨Real.cos φ * Real.cos t, Real.cos φ * Real.sin t, Real.sin φ⟩

end Spec

open Spec S2

theorem isArg_arg : IsArg (fun y x => Complex.arg ⟨x, y⟩) := by
  refine ⟨fun r t hr h0 h1 => ?_, ?_⟩
  · have := Complex.arg_mul_cos_add_sin_mul_I hr (θ := t) ⟨h0, h1⟩
    refine Eq.trans ?_ this
    refine congrArg Complex.arg ?_
    apply Complex.ext <;> simp [← Complex.ofReal_cos, ← Complex.ofReal_sin]
  · show Complex.arg ⟨0, 0⟩ = 0
    exact Complex.arg_zero

theorem isArg_isAtan2 {atan2 : ℝ → ℝ → ℝ} (h : IsArg atan2) : IsAtan2 atan2 :=
  fun r t hr h0 h1 => h.1 r t hr (by linarith [Real.pi_pos]) h1

/-- Polar coordinates. -/
theorem exists_polar (x y : ℝ) : ∃ r t, 0 ≤ r ∧ -Real.pi < t ∧ t ≤ Real.pi ∧ x = r * Real.cos t ∧ y = r * Real.sin t ∧ r ^ 2 = x ^ 2 + y ^ 2 := by
  refine ⟨‖(⟨x, y⟩ : ℂ)‖, Complex.arg ⟨x, y⟩, norm_nonneg _, Complex.neg_pi_lt_arg _, Complex.arg_le_pi _, ?_, ?_, ?_⟩
  · exact (Complex.norm_mul_cos_arg ⟨x, y⟩).symm
  · exact (Complex.norm_mul_sin_arg ⟨x, y⟩).symm
  · rw [Complex.sq_norm, Complex.normSq_apply]; ring

theorem arg_range {atan2 : ℝ → ℝ → ℝ} (h : IsArg atan2) (y x : ℝ) :
    |atan2 y x| ≤ Real.pi ∧ (0 ≤ x → |atan2 y x| ≤ Real.pi / 2) := by
  have hp := Real.pi_pos
  obtain ⟨r, t, hr, t0, t1, hx, hy, _⟩ := exists_polar x y
  rcases hr.lt_or_eq with hr | hr
  · have e := h.1 r t hr t0 t1
    rw [← hx, ← hy] at e
    rw [e]
    refine ⟨abs_le.2 ⟨t0.le, t1⟩, fun hx0 => ?_⟩
    by_contra hc
    rw [not_le, lt_abs] at hc
    have : Real.cos t < 0 := by
      rcases hc with hc | hc
      · exact Real.cos_neg_of_pi_div_two_lt_of_lt hc (by linarith)
      · rw [← Real.cos_neg]; exact Real.cos_neg_of_pi_div_two_lt_of_lt hc (by linarith)
    nlinarith
  · rw [← hr] at hx hy
    rw [hx, hy]
    simp only [zero_mul, h.2, abs_zero]
    exact ⟨hp.le, fun _ => by positivity⟩

theorem pi_f64 : rne Real.pi = piF64 ∧ rne (Real.pi / 2) = piF64 / 2 := by
  have h1 := Real.pi_gt_d20
  have h2 := Real.pi_lt_d20
  have hx : |Real.pi| = Real.pi := abs_of_pos Real.pi_pos
  have hy : |Real.pi / 2| = Real.pi / 2 := abs_of_pos (by positivity)
  constructor
  · rw [rne_binade (e := -51) (by norm_num) (by rw [hx]; norm_num; linarith) (by rw [hx]; norm_num; linarith)]
    have : roundEven (Real.pi / 2 ^ (-51 : ℤ) : ℝ) = 7074237752028440 := by
      refine roundEven_eq ?_
      rw [abs_lt]; norm_num; constructor <;> linarith
    rw [this]; unfold piF64; norm_num
  · rw [rne_binade (e := -52) (by norm_num) (by rw [hy]; norm_num; linarith) (by rw [hy]; norm_num; linarith)]
    have : roundEven (Real.pi / 2 / 2 ^ (-52 : ℤ) : ℝ) = 7074237752028440 := by
      refine roundEven_eq ?_
      rw [abs_lt]; norm_num; constructor <;> linarith
    rw [this]; unfold piF64; norm_num

/-- **C86.** With IEEE rounding in every step (and an `atan2` that is correctly rounded), the latitude and longitude of any vector at all are valid. -/
theorem c86_valid {atan2 : ℝ → ℝ → ℝ} (h : IsArg atan2) (v : Vec ℝ) : (LatLng.ofPoint rne Real.sqrt atan2 v).isValid piF64 = true := by
  have key : ∀ a b : ℝ, |a| ≤ b → |rne a| ≤ rne b := by
    intro a b hab
    rw [abs_le] at hab ⊢
    exact ⟨by rw [← rne_odd]; exact rne_mono hab.1, rne_mono hab.2⟩
  have h1 := key _ _ ((arg_range h v.z (rne (Real.sqrt (rne (rne (v.x * v.x) + rne (v.y * v.y)))))).2 (rne_nonneg (Real.sqrt_nonneg _)))
  have h2 := key _ _ (arg_range h v.y v.x).1
  rw [pi_f64.2] at h1
  rw [pi_f64.1] at h2
  unfold LatLng.isValid LatLng.ofPoint LatLng.latitude LatLng.longitude
  simp only [Bool.and_eq_true, decide_eq_true_eq]
  exact ⟨h1, h2⟩

example : (LatLng.ofPoint rne Real.sqrt (fun y x => Complex.arg ⟨x, y⟩) ⟨-1, 0, 2⟩).isValid piF64 = true := c86_valid isArg_arg _

theorem unit_direction (φ t : ℝ) : UnitV (direction φ t) := by
  unfold UnitV direction dot
  linear_combination (Real.cos φ) ^ 2 * Real.sin_sq_add_cos_sq t + Real.sin_sq_add_cos_sq φ

theorem toPoint_eq (ll : LatLng ℝ) : LatLng.toPoint _root_.id Real.sin Real.cos ll = direction ll.lat ll.lng := by
  simp only [LatLng.toPoint, direction, _root_.id, Vec.mk.injEq]
  refine ⟨?_, ?_, trivial⟩ <;> ring

/-- **C86.** In exact arithmetic the point of a latitude and longitude is the unit vector of that direction. -/
theorem c86_toPoint (ll : LatLng ℝ) :
    LatLng.toPoint _root_.id Real.sin Real.cos ll = direction ll.lat ll.lng ∧ UnitV (LatLng.toPoint _root_.id Real.sin Real.cos ll) :=
  ⟨toPoint_eq ll, by rw [toPoint_eq]; exact unit_direction _ _⟩

example : direction 0 (Real.pi / 2) = ⟨0, 1, 0⟩ := by simp [direction]

/-- The latitude and longitude of a non-zero multiple of a direction. -/
theorem ofPoint_direction {atan2 : ℝ → ℝ → ℝ} (h : IsArg atan2) {s φ t : ℝ} (hs : 0 < s) (h1 : -(Real.pi / 2) ≤ φ) (h2 : φ ≤ Real.pi / 2)
    (h3 : -Real.pi < t) (h4 : t ≤ Real.pi) :
    LatLng.latitude _root_.id Real.sqrt atan2 (smul s (direction φ t)) = φ ∧
    (-(Real.pi / 2) < φ → φ < Real.pi / 2 → LatLng.longitude _root_.id atan2 (smul s (direction φ t)) = t) := by
  have hp := Real.pi_pos
  have c0 : 0 ≤ Real.cos φ := Real.cos_nonneg_of_mem_Icc ⟨h1, h2⟩
  constructor
  · have e : LatLng.latitude _root_.id Real.sqrt atan2 (smul s (direction φ t)) = atan2 (s * Real.sin φ) (Real.sqrt ((s * (Real.cos φ * Real.cos t)) * (s * (Real.cos φ * Real.cos t)) +
        (s * (Real.cos φ * Real.sin t)) * (s * (Real.cos φ * Real.sin t)))) := rfl
    have e2 : (s * (Real.cos φ * Real.cos t)) * (s * (Real.cos φ * Real.cos t)) + (s * (Real.cos φ * Real.sin t)) * (s * (Real.cos φ * Real.sin t)) = (s * Real.cos φ) ^ 2 := by
      linear_combination (s * Real.cos φ) ^ 2 * Real.sin_sq_add_cos_sq t
    rw [e, e2, Real.sqrt_sq (by positivity)]
    exact h.1 s φ hs (by linarith) (by linarith)
  · intro k1 k2
    have c1 : 0 < Real.cos φ := Real.cos_pos_of_mem_Ioo ⟨k1, k2⟩
    have e : LatLng.longitude _root_.id atan2 (smul s (direction φ t)) = atan2 (s * (Real.cos φ * Real.sin t)) (s * (Real.cos φ * Real.cos t)) := rfl
    rw [e, ← mul_assoc, ← mul_assoc]
    exact h.1 _ t (by positivity) h3 h4

/-- Every non-zero vector has a direction. -/
theorem exists_direction {v : Vec ℝ} (hv : ¬ IsZero v) :
    ∃ s φ t, 0 < s ∧ -(Real.pi / 2) ≤ φ ∧ φ ≤ Real.pi / 2 ∧ -Real.pi < t ∧ t ≤ Real.pi ∧ v = smul s (direction φ t) ∧ s ^ 2 = dot v v ∧
      (v.x = 0 ∧ v.y = 0 → t = 0) := by
  have hp := Real.pi_pos
  obtain ⟨r, t, hr, t0, t1, hx, hy, hr2⟩ := exists_polar v.x v.y
  obtain ⟨s, φ, hs, p0, p1, hr', hz, hs2⟩ := exists_polar r v.z
  have hs' : 0 < s := by
    rcases hs.lt_or_eq with hs | hs
    · exact hs
    · exfalso
      rw [← hs] at hr' hz
      rw [zero_mul] at hr' hz
      rw [hr', zero_mul] at hx hy
      exact hv ⟨hx, hy, hz⟩
  have hc : 0 ≤ Real.cos φ := by
    rw [hr'] at hr
    exact nonneg_of_mul_nonneg_right hr hs'
  have hφ : |φ| ≤ Real.pi / 2 := by
    by_contra hcc
    rw [not_le, lt_abs] at hcc
    have : Real.cos φ < 0 := by
      rcases hcc with hcc | hcc
      · exact Real.cos_neg_of_pi_div_two_lt_of_lt hcc (by linarith)
      · rw [← Real.cos_neg]; exact Real.cos_neg_of_pi_div_two_lt_of_lt hcc (by linarith)
    linarith
  rw [abs_le] at hφ
  have hd : s ^ 2 = dot v v := by unfold dot; linear_combination hs2 + hr2
  by_cases h0 : v.x = 0 ∧ v.y = 0
  · have r0 : r = 0 := by rw [h0.1, h0.2] at hr2; nlinarith
    refine ⟨s, φ, 0, hs', hφ.1, hφ.2, by linarith, hp.le, ?_, hd, fun _ => rfl⟩
    obtain ⟨x, y, z⟩ := v
    simp only [smul, direction, Vec.mk.injEq] at *
    rw [r0] at hr'
    refine ⟨by rw [h0.1, Real.cos_zero, mul_one, ← hr'], by rw [h0.2, Real.sin_zero]; ring, hz⟩
  · refine ⟨s, φ, t, hs', hφ.1, hφ.2, t0, t1, ?_, hd, fun h => absurd h h0⟩
    obtain ⟨x, y, z⟩ := v
    simp only [smul, direction, Vec.mk.injEq] at *
    refine ⟨by rw [hx, hr']; ring, by rw [hy, hr']; ring, hz⟩

/-- **C86.** In exact arithmetic the conversion to a point and back gives the same latitude, and except at the poles the same longitude; the
conversion of a non-zero vector to latitude and longitude and back gives the unit vector of the same direction. -/
theorem c86_roundTrip {atan2 : ℝ → ℝ → ℝ} (h : IsArg atan2) :
    (∀ ll : LatLng ℝ, |ll.lat| ≤ Real.pi / 2 → -Real.pi < ll.lng → ll.lng ≤ Real.pi →
      (LatLng.ofPoint _root_.id Real.sqrt atan2 (LatLng.toPoint _root_.id Real.sin Real.cos ll)).lat = ll.lat ∧
      (|ll.lat| < Real.pi / 2 → (LatLng.ofPoint _root_.id Real.sqrt atan2 (LatLng.toPoint _root_.id Real.sin Real.cos ll)).lng = ll.lng)) ∧
    (∀ v : Vec ℝ, ¬ IsZero v → ∃ s, 0 < s ∧ v = smul s (LatLng.toPoint _root_.id Real.sin Real.cos (LatLng.ofPoint _root_.id Real.sqrt atan2 v))) ∧
    (∀ v : Vec ℝ, UnitV v → LatLng.toPoint _root_.id Real.sin Real.cos (LatLng.ofPoint _root_.id Real.sqrt atan2 v) = v) := by
  have one : ∀ v : Vec ℝ, smul 1 v = v := fun v => by simp [smul]
  have back : ∀ v : Vec ℝ, ¬ IsZero v → ∃ s, 0 < s ∧ s ^ 2 = dot v v ∧ v = smul s (LatLng.toPoint _root_.id Real.sin Real.cos (LatLng.ofPoint _root_.id Real.sqrt atan2 v)) := by
    intro v hv
    obtain ⟨s, φ, t, hs, p0, p1, t0, t1, e, e2, e3⟩ := exists_direction hv
    refine ⟨s, hs, e2, ?_⟩
    rw [toPoint_eq]
    obtain ⟨a1, a2⟩ := ofPoint_direction h hs p0 p1 t0 t1
    rw [← e] at a1 a2
    have elat : (LatLng.ofPoint _root_.id Real.sqrt atan2 v).lat = φ := a1
    rw [elat]
    by_cases hx : v.x = 0 ∧ v.y = 0
    · have : (LatLng.ofPoint _root_.id Real.sqrt atan2 v).lng = t := by
        rw [e3 hx]
        show _root_.id (atan2 v.y v.x) = 0
        rw [hx.1, hx.2]
        exact h.2
      rw [this]; exact e
    · have : (LatLng.ofPoint _root_.id Real.sqrt atan2 v).lng = t := by
        refine a2 (lt_of_le_of_ne p0 fun hc => hx ?_) (lt_of_le_of_ne p1 fun hc => hx ?_)
        · rw [e, ← hc]; simp [smul, direction]
        · rw [e, hc]; simp [smul, direction]
      rw [this]; exact e
  refine ⟨fun ll h1 h2 h3 => ?_, fun v hv => ?_, fun v hv => ?_⟩
  · rw [abs_le] at h1
    obtain ⟨a1, a2⟩ := ofPoint_direction h one_pos h1.1 h1.2 h2 h3
    rw [one] at a1 a2
    rw [toPoint_eq]
    refine ⟨a1, fun h4 => ?_⟩
    rw [abs_lt] at h4
    exact a2 h4.1 h4.2
  · obtain ⟨s, s0, _, e⟩ := back v hv
    exact ⟨s, s0, e⟩
  · obtain ⟨s, s0, s2, e⟩ := back v (unit_ne hv)
    have : s = 1 := by rw [show dot v v = 1 from hv] at s2; nlinarith
    rw [this, one] at e
    exact e.symm

example : UnitV (⟨0, 0, -1⟩ : Vec ℝ) ∧ ¬ IsZero (⟨1, 2, 3⟩ : Vec ℝ) := by norm_num [UnitV, dot, IsZero]

/-- **C86.** In exact arithmetic `distance` is the angle between the two points. -/
theorem c86_distance {atan2 : ℝ → ℝ → ℝ} (h : IsArg atan2) (a b : LatLng ℝ) :
    LatLng.distance _root_.id Real.sqrt Real.sin Real.cos atan2 a b = ang (direction a.lat a.lng) (direction b.lat b.lng) := by
  have hp := Real.pi_pos
  have d := dot_le_one (unit_direction a.lat a.lng) (unit_direction b.lat b.lng)
  set c := ang (direction a.lat a.lng) (direction b.lat b.lng) with hc
  have c0 : 0 ≤ c := ang_nonneg _ _
  have c1 : c ≤ Real.pi := ang_le_pi _ _
  have cc := cos_ang (unit_direction a.lat a.lng) (unit_direction b.lat b.lng)
  rw [← hc] at cc
  have hx : Real.sin (1 / 2 * (b.lat - a.lat)) * Real.sin (1 / 2 * (b.lat - a.lat)) +
      Real.sin (1 / 2 * (b.lng - a.lng)) * Real.sin (1 / 2 * (b.lng - a.lng)) * Real.cos a.lat * Real.cos b.lat = Real.sin (c / 2) ^ 2 := by
    have s1 : ∀ t : ℝ, Real.sin (1 / 2 * t) * Real.sin (1 / 2 * t) = (1 - Real.cos t) / 2 := by
      intro t
      have h1 := Real.cos_two_mul (1 / 2 * t)
      have h2 := Real.sin_sq_add_cos_sq (1 / 2 * t)
      rw [show 2 * (1 / 2 * t) = t by ring] at h1
      rw [h1]
      linear_combination h2
    have s2 : Real.sin (c / 2) ^ 2 = (1 - Real.cos c) / 2 := by rw [← s1]; rw [show 1 / 2 * c = c / 2 by ring]; ring
    rw [s1, s1, s2, cc, Real.cos_sub, Real.cos_sub]
    simp only [dot, direction]
    ring
  have sn : 0 ≤ Real.sin (c / 2) := Real.sin_nonneg_of_nonneg_of_le_pi (by linarith) (by linarith)
  have cn : 0 ≤ Real.cos (c / 2) := Real.cos_nonneg_of_mem_Icc ⟨by linarith, by linarith⟩
  have e : LatLng.distance _root_.id Real.sqrt Real.sin Real.cos atan2 a b = 2 * atan2 (Real.sqrt (Real.sin (1 / 2 * (b.lat - a.lat)) * Real.sin (1 / 2 * (b.lat - a.lat)) +
      Real.sin (1 / 2 * (b.lng - a.lng)) * Real.sin (1 / 2 * (b.lng - a.lng)) * Real.cos a.lat * Real.cos b.lat))
      (Real.sqrt (max (1 - (Real.sin (1 / 2 * (b.lat - a.lat)) * Real.sin (1 / 2 * (b.lat - a.lat)) +
      Real.sin (1 / 2 * (b.lng - a.lng)) * Real.sin (1 / 2 * (b.lng - a.lng)) * Real.cos a.lat * Real.cos b.lat)) 0)) := rfl
  have e1 : 1 - Real.sin (c / 2) ^ 2 = Real.cos (c / 2) ^ 2 := by linarith [Real.sin_sq_add_cos_sq (c / 2)]
  rw [e, hx, e1, max_eq_left (sq_nonneg _), Real.sqrt_sq sn, Real.sqrt_sq cn]
  have := h.1 1 (c / 2) one_pos (by linarith) (by linarith)
  rw [one_mul, one_mul] at this
  rw [this]; ring

/-- A quarter of a circle. -/
example : ang (direction 0 0) (direction 0 (Real.pi / 2)) = Real.pi / 2 := by simp [ang, dot, direction]

end Verif
