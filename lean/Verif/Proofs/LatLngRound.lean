import Verif.Model.CellLatLng
import Verif.Properties.LatLng
import Verif.Properties.PointRound

/-!
# Rounding errors of the conversions between points and latitudes and longitudes
-/

namespace Verif
open Spec S2 CellID

namespace Spec

/-- A library function with a relative error of at most `2^-52`. -/
def NearRel (f g : ℝ → ℝ) : Prop := ∀ x, |f x - g x| ≤ |g x| / 2 ^ 52

/-- A library `atan2` with an error of at most `2^-51`: `t` is a polar angle of the point `(x, y)`. For points on the negative `x`-axis it may be
`π` or `-π`, as for the two zeros; for the origin any angle. -/
def NearArg (atan2 : ℝ → ℝ → ℝ) : Prop :=
  ∀ y x, ∃ t, |t| ≤ Real.pi ∧ |atan2 y x - t| ≤ 1 / 2 ^ 51 ∧ Real.sqrt (x * x + y * y) * Real.cos t = x ∧ Real.sqrt (x * x + y * y) * Real.sin t = y

end Spec

theorem nearRel_self (g : ℝ → ℝ) : NearRel g g := fun x => by rw [sub_self, abs_zero]; positivity

theorem nearArg_arg : NearArg (fun y x => Complex.arg ⟨x, y⟩) := by
  intro y x
  refine ⟨Complex.arg ⟨x, y⟩, Complex.abs_arg_le_pi _, by rw [sub_self, abs_zero]; positivity, ?_, ?_⟩
  · have := Complex.norm_mul_cos_arg ⟨x, y⟩
    rwa [Complex.norm_def, Complex.normSq_mk] at this
  · have := Complex.norm_mul_sin_arg ⟨x, y⟩
    rwa [Complex.norm_def, Complex.normSq_mk] at this

/-- Half the distance from 1 to the next double. -/
noncomputable def eps53 : ℝ := 1 / 2 ^ 53

/-- A bound for the errors caused by underflow. -/
noncomputable def tau200 : ℝ := 1 / 2 ^ 200

theorem eps53_pos : 0 < eps53 := by unfold eps53; positivity
theorem eps53_le : eps53 ≤ 1 / 10 ^ 15 := by unfold eps53; norm_num
theorem tau200_pos : 0 < tau200 := by unfold tau200; positivity
theorem tau200_le : tau200 ≤ eps53 / 10 ^ 40 := by unfold eps53 tau200; norm_num
theorem tau_le : (1 : ℝ) / 2 ^ 1075 ≤ tau200 := one_div_le_one_div_of_le (by positivity) (pow_le_pow_right₀ (by norm_num) (by norm_num))

/-- The rounding error of a number of moderate size. -/
theorem fl_err {fl : ℝ → ℝ} (h : Rounding fl) {x : ℝ} (hx : |x| ≤ 100) : |fl x - x| ≤ |x| * eps53 + tau200 := by
  have h1 := h x (hx.trans ((by norm_num : (100 : ℝ) ≤ 2 ^ 7).trans (pow_le_pow_right₀ (by norm_num) (by norm_num))))
  have := tau_le
  have e : |x| / 2 ^ 53 = |x| * eps53 := by unfold eps53; ring
  linarith

/-- A library function and a rounding. -/
theorem lib_err {fl f g : ℝ → ℝ} (h : Rounding fl) (hf : NearRel f g) {x : ℝ} (hx : |g x| ≤ 1) :
    |fl (f x) - g x| ≤ 4 * eps53 * |g x| + tau200 := by
  have h1 := hf x
  have e : |g x| / 2 ^ 52 = 2 * eps53 * |g x| := by unfold eps53; ring
  rw [e] at h1
  have e0 := eps53_pos
  have e1 := eps53_le
  have h6 := abs_nonneg (g x)
  have h2 : |f x| ≤ |g x| + 2 * eps53 * |g x| := by linarith [abs_sub_abs_le_abs_sub (f x) (g x)]
  have h3 : |f x| ≤ 2 * |g x| := by
    have := mul_le_mul_of_nonneg_right e1 h6
    linarith
  have h4 := fl_err h (x := f x) (by linarith)
  have h5 := abs_add_le (fl (f x) - f x) (f x - g x)
  rw [sub_add_sub_cancel] at h5
  have h7 := mul_le_mul_of_nonneg_right h3 e0.le
  linarith

/-- The product of two computed factors. -/
theorem prod_err {fl : ℝ → ℝ} (h : Rounding fl) {a b A B : ℝ} (hA : |A| ≤ 1) (hB : |B| ≤ 1) (ha : |a - A| ≤ 4 * eps53 * |A| + tau200)
    (hb : |b - B| ≤ 4 * eps53 * |B| + tau200) : |fl (a * b) - A * B| ≤ 12 * eps53 * |B| + 4 * tau200 := by
  have B0 := abs_nonneg B
  have e0 := eps53_pos
  have e1 := eps53_le
  have t0 := tau200_pos
  have t1 := tau200_le
  have a1 : |a - A| ≤ 5 * eps53 := by
    have := mul_le_mul_of_nonneg_left hA e0.le
    linarith
  have a2 : |a| ≤ 11 / 10 := by
    have := abs_sub_abs_le_abs_sub a A
    linarith
  have h1 : |a * b - A * B| ≤ 10 * eps53 * |B| + 2 * tau200 := by
    have e : a * b - A * B = a * (b - B) + (a - A) * B := by ring
    rw [e]
    refine (abs_add_le _ _).trans ?_
    rw [abs_mul, abs_mul]
    have m1 := mul_le_mul a2 hb (abs_nonneg _) (by norm_num)
    have m2 := mul_le_mul_of_nonneg_right a1 B0
    have m3 := mul_nonneg e0.le B0
    linarith
  have h2 : |a * b| ≤ 2 * |B| + 2 * tau200 := by
    have := abs_sub_abs_le_abs_sub (a * b) (A * B)
    rw [abs_mul A B] at this
    have m1 := mul_le_mul_of_nonneg_right hA B0
    have m2 := mul_le_mul_of_nonneg_right e1 B0
    linarith
  have h3 := fl_err h (x := a * b) (by linarith)
  have h4 := abs_add_le (fl (a * b) - a * b) (a * b - A * B)
  rw [sub_add_sub_cancel] at h4
  have h5 := mul_le_mul_of_nonneg_right h2 e0.le
  have h6 : eps53 * tau200 ≤ tau200 * (1 / 10) := by rw [mul_comm]; exact mul_le_mul_of_nonneg_left (by linarith) t0.le
  linarith

/-- The point of a latitude and longitude, computed with rounding. -/
theorem toPoint_err {fl sin cos : ℝ → ℝ} (h : Rounding fl) (hsin : NearRel sin Real.sin) (hcos : NearRel cos Real.cos) (ll : LatLng ℝ) :
    |(LatLng.toPoint fl sin cos ll).x - Real.cos ll.lng * Real.cos ll.lat| ≤ 12 * eps53 * |Real.cos ll.lat| + 4 * tau200 ∧
    |(LatLng.toPoint fl sin cos ll).y - Real.sin ll.lng * Real.cos ll.lat| ≤ 12 * eps53 * |Real.cos ll.lat| + 4 * tau200 ∧
    |(LatLng.toPoint fl sin cos ll).z - Real.sin ll.lat| ≤ 4 * eps53 * |Real.sin ll.lat| + tau200 := by
  have c1 := lib_err h hcos (Real.abs_cos_le_one ll.lat)
  have c2 := lib_err h hcos (Real.abs_cos_le_one ll.lng)
  have s2 := lib_err h hsin (Real.abs_sin_le_one ll.lng)
  exact ⟨prod_err h (Real.abs_cos_le_one _) (Real.abs_cos_le_one _) c2 c1, prod_err h (Real.abs_sin_le_one _) (Real.abs_cos_le_one _) s2 c1,
    lib_err h hsin (Real.abs_sin_le_one _)⟩

/-- A computed angle. -/
theorem angle_err {fl : ℝ → ℝ} (h : Rounding fl) {a t : ℝ} (ht : |t| ≤ Real.pi) (ha : |a - t| ≤ 1 / 2 ^ 51) : |fl a - t| ≤ 8 * eps53 := by
  have e0 := eps53_pos
  have e1 := eps53_le
  have t1 := tau200_le
  have hp := Real.pi_lt_d2
  rw [show (1 : ℝ) / 2 ^ 51 = 4 * eps53 by unfold eps53; norm_num] at ha
  have h1 : |a| ≤ 16 / 5 := by
    have := abs_sub_abs_le_abs_sub a t
    linarith
  have h2 := fl_err h (x := a) (by linarith)
  have h3 := abs_add_le (fl a - a) (a - t)
  rw [sub_add_sub_cancel] at h3
  have := mul_le_mul_of_nonneg_right h1 e0.le
  linarith

/-- A square root of a computed sum. -/
theorem root_err {N r : ℝ} (r0 : 0 ≤ r) (r1 : r ≤ 3) (hN : |N - r ^ 2| ≤ 3 * eps53 * r ^ 2 + 10 * tau200) : |Real.sqrt N - r| ≤ 10 * eps53 := by
  have e0 := eps53_pos
  have e1 := eps53_le
  have t0 := tau200_pos
  have t1 := tau200_le
  set q := Real.sqrt N with hq
  have q0 : 0 ≤ q := Real.sqrt_nonneg _
  have hd : |q ^ 2 - r ^ 2| ≤ 3 * eps53 * r ^ 2 + 10 * tau200 := by
    rcases le_or_gt 0 N with h | h
    · rw [hq, Real.sq_sqrt h]; exact hN
    · rw [hq, Real.sqrt_eq_zero_of_nonpos h.le]
      refine le_trans ?_ hN
      have r2 := sq_nonneg r
      rw [abs_of_nonpos (by linarith : N - r ^ 2 ≤ 0), zero_pow two_ne_zero, zero_sub, abs_neg, abs_of_nonneg r2]
      linarith
  have hf : |q - r| * (q + r) ≤ 3 * eps53 * r ^ 2 + 10 * tau200 := by
    refine le_trans (le_of_eq ?_) hd
    rw [show q ^ 2 - r ^ 2 = (q - r) * (q + r) by ring, abs_mul, abs_of_nonneg (by linarith : 0 ≤ q + r)]
  by_contra hc
  rw [not_le] at hc
  -- the error would be larger than the numbers allow
  have h1 : |q - r| * r ≤ 3 * eps53 * r ^ 2 + 10 * tau200 := by
    refine le_trans ?_ hf
    exact mul_le_mul_of_nonneg_left (by linarith) (abs_nonneg _)
  have h2 : 10 * eps53 * r ≤ 3 * eps53 * r ^ 2 + 10 * tau200 := (mul_le_mul_of_nonneg_right hc.le r0).trans h1
  have h3 : 3 * eps53 * r ^ 2 ≤ 9 * eps53 * r := by nlinarith [mul_nonneg e0.le r0]
  have h4 : eps53 * r ≤ 10 * tau200 := by linarith
  have h5 : r ≤ 1 / 10 ^ 38 := by
    by_contra h
    rw [not_le] at h
    have := mul_lt_mul_of_pos_left h e0
    linarith
  have h6 : q ≤ eps53 := by
    by_contra h
    rw [not_le] at h
    have g1 : q ^ 2 ≤ r ^ 2 + (3 * eps53 * r ^ 2 + 10 * tau200) := by linarith [(abs_le.1 hd).2]
    have g2 : r ^ 2 ≤ 1 / 10 ^ 38 * r := by nlinarith
    have g3 : eps53 * eps53 < q ^ 2 := by nlinarith
    have g4 : 1 / 10 ^ 17 ≤ eps53 := by unfold eps53; norm_num
    have g5 : eps53 * r ^ 2 ≤ 1 * r ^ 2 := mul_le_mul_of_nonneg_right (by linarith) (by positivity)
    nlinarith
  have h7 : |q - r| ≤ 2 * eps53 := by
    have : (1 : ℝ) / 10 ^ 38 ≤ eps53 := by unfold eps53; norm_num
    rw [abs_le]
    constructor <;> linarith
  linarith

/-- The distance from the axis, computed as in `latitude`. -/
theorem radius_err {fl : ℝ → ℝ} (h : Rounding fl) {x y : ℝ} (hxy : x * x + y * y ≤ 8) :
    |fl (Real.sqrt (fl (fl (x * x) + fl (y * y)))) - Real.sqrt (x * x + y * y)| ≤ 14 * eps53 := by
  have e0 := eps53_pos
  have e1 := eps53_le
  have t0 := tau200_pos
  have t1 := tau200_le
  have x0 := mul_self_nonneg x
  have y0 := mul_self_nonneg y
  have q0 := Real.sqrt_nonneg (x * x + y * y)
  have q2 : Real.sqrt (x * x + y * y) ^ 2 = x * x + y * y := Real.sq_sqrt (by linarith)
  have hx := fl_err h (x := x * x) (by rw [abs_of_nonneg x0]; linarith)
  have hy := fl_err h (x := y * y) (by rw [abs_of_nonneg y0]; linarith)
  rw [abs_of_nonneg x0] at hx
  rw [abs_of_nonneg y0] at hy
  have h1 : |fl (x * x) + fl (y * y) - (x * x + y * y)| ≤ (x * x + y * y) * eps53 + 2 * tau200 := by
    have := abs_add_le (fl (x * x) - x * x) (fl (y * y) - y * y)
    rw [show fl (x * x) - x * x + (fl (y * y) - y * y) = fl (x * x) + fl (y * y) - (x * x + y * y) by ring] at this
    linarith
  generalize fl (x * x) + fl (y * y) = S at *
  generalize Real.sqrt (x * x + y * y) = r at *
  rw [← q2] at h1 hxy
  have r3 : r ≤ 3 := by nlinarith
  have r2 := sq_nonneg r
  have hm := mul_le_mul_of_nonneg_left e1 r2
  have h2 : |S| ≤ 2 * r ^ 2 + 2 * tau200 := by
    have := abs_sub_abs_le_abs_sub S (r ^ 2)
    rw [abs_of_nonneg r2] at this
    linarith
  have h3 := fl_err h (x := S) (by linarith)
  have h3' := mul_le_mul_of_nonneg_right h2 e0.le
  have h4 := abs_add_le (fl S - S) (S - r ^ 2)
  rw [sub_add_sub_cancel] at h4
  have h6 : eps53 * tau200 ≤ tau200 * (1 / 10) := by rw [mul_comm]; exact mul_le_mul_of_nonneg_left (by linarith) t0.le
  have h5 := root_err q0 r3 (N := fl S) (by linarith)
  have h7 : |Real.sqrt (fl S)| ≤ 7 / 2 := by
    have := abs_sub_abs_le_abs_sub (Real.sqrt (fl S)) r
    rw [abs_of_nonneg q0] at this
    linarith
  have h8 := fl_err h (x := Real.sqrt (fl S)) (by linarith)
  have h9 := abs_add_le (fl (Real.sqrt (fl S)) - Real.sqrt (fl S)) (Real.sqrt (fl S) - r)
  rw [sub_add_sub_cancel] at h9
  have := mul_le_mul_of_nonneg_right h7 e0.le
  linarith

/-- The latitude and longitude of a point, computed with rounding, by their sines and cosines. `r` is the distance from the axis, `s` the length. -/
structure OfPointErr (v : Vec ℝ) (ll : LatLng ℝ) (t1 t2 r s : ℝ) : Prop where
  r0 : 0 ≤ r
  r2 : r ^ 2 = v.x * v.x + v.y * v.y
  s0 : 0 < s
  s2 : s ^ 2 = dot v v
  b1 : |t1| ≤ Real.pi
  b2 : |t2| ≤ Real.pi
  lat : |ll.lat - t1| ≤ 8 * eps53
  lng : |ll.lng - t2| ≤ 8 * eps53
  cos1 : |s * Real.cos t1 - r| ≤ 28 * eps53
  sin1 : |s * Real.sin t1 - v.z| ≤ 14 * eps53
  cos2 : r * Real.cos t2 = v.x
  sin2 : r * Real.sin t2 = v.y

theorem ofPoint_err {fl : ℝ → ℝ} {atan2 : ℝ → ℝ → ℝ} (h : Rounding fl) (ha : NearArg atan2) {v : Vec ℝ} (h0 : ¬ IsZero v) (h1 : dot v v ≤ 8) :
    ∃ t1 t2 r s, OfPointErr v (LatLng.ofPoint fl Real.sqrt atan2 v) t1 t2 r s := by
  have z0 := mul_self_nonneg v.z
  have x0 := mul_self_nonneg v.x
  have y0 := mul_self_nonneg v.y
  have hd : dot v v = v.x * v.x + v.y * v.y + v.z * v.z := rfl
  have hr := radius_err h (x := v.x) (y := v.y) (by linarith)
  obtain ⟨t2, c1, c2, c3, c4⟩ := ha v.y v.x
  set R := fl (Real.sqrt (fl (fl (v.x * v.x) + fl (v.y * v.y)))) with hR
  obtain ⟨t1, d1, d2, d3, d4⟩ := ha v.z R
  set r := Real.sqrt (v.x * v.x + v.y * v.y) with hr'
  have r2 : r ^ 2 = v.x * v.x + v.y * v.y := Real.sq_sqrt (by linarith)
  have r0 : 0 ≤ r := Real.sqrt_nonneg _
  set s := Real.sqrt (dot v v) with hs
  have hpos : 0 < dot v v := by
    rcases lt_or_eq_of_le (show 0 ≤ dot v v by rw [hd]; linarith) with hh | hh
    · exact hh
    · exfalso
      rw [hd] at hh
      exact h0 ⟨mul_self_eq_zero.1 (by linarith), mul_self_eq_zero.1 (by linarith), mul_self_eq_zero.1 (by linarith)⟩
  have s2 : s ^ 2 = dot v v := Real.sq_sqrt hpos.le
  have s0 : 0 < s := Real.sqrt_pos.2 hpos
  set S := Real.sqrt (R * R + v.z * v.z) with hS
  have S0 : 0 ≤ S := Real.sqrt_nonneg _
  have S2 : S ^ 2 = R * R + v.z * v.z := Real.sq_sqrt (by nlinarith [mul_self_nonneg R])
  -- the lengths differ by no more than the radii
  have hl : |s - S| ≤ |R - r| := by
    have e : (s - S) * (s + S) = (r - R) * (r + R) := by
      rw [hd] at s2
      linear_combination s2 - S2 - r2
    have e2 := congrArg abs e
    rw [abs_mul, abs_mul, abs_of_pos (by linarith : 0 < s + S), abs_sub_comm r R] at e2
    have h2 : |r + R| ≤ s + S := by
      have a1 : r ≤ s := by
        refine le_of_sq_le_sq ?_ s0.le
        rw [s2, r2, hd]; linarith
      have a2 : |R| ≤ S := by
        rw [← abs_of_nonneg S0]
        refine sq_le_sq.1 ?_
        rw [S2]; nlinarith
      have := abs_add_le r R
      rw [abs_of_nonneg r0] at this
      linarith
    have h3 : |s - S| * (s + S) ≤ |R - r| * (s + S) := by
      rw [e2]
      exact mul_le_mul_of_nonneg_left h2 (abs_nonneg _)
    exact le_of_mul_le_mul_right h3 (by linarith)
  refine ⟨t1, t2, r, s, r0, r2, s0, s2, d1, c1, angle_err h d1 d2, angle_err h c1 c2, ?_, ?_, c3, c4⟩
  · have e : s * Real.cos t1 - r = (s - S) * Real.cos t1 + (R - r) := by linear_combination d3
    rw [e]
    refine (abs_add_le _ _).trans ?_
    rw [abs_mul]
    have := mul_le_mul_of_nonneg_left (Real.abs_cos_le_one t1) (abs_nonneg (s - S))
    linarith
  · have e : s * Real.sin t1 - v.z = (s - S) * Real.sin t1 := by linear_combination d4
    rw [e, abs_mul]
    have := mul_le_mul_of_nonneg_left (Real.abs_sin_le_one t1) (abs_nonneg (s - S))
    linarith

end Verif
