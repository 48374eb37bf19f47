import Verif.Proofs.DistRound

/-!
# C116: distances with rounding

`fl` is any rounding with the error bound of IEEE 754 that maps numbers at least zero to numbers at least zero; `sin`, `cos` and `atan2` are library
functions with the errors of `NearRel` and `NearArgUp`.
-/

namespace Verif
open Spec S2

/-- The computed `atan2` of numbers near `c * sin b`, `c * cos b`. -/
theorem atan_err {fl : ℝ → ℝ} {atan2 : ℝ → ℝ → ℝ} (h : Rounding fl) (ha : NearArgUp atan2) {Y X b c E : ℝ} (Y0 : 0 ≤ Y) (c0 : 0 < c) (b0 : 0 ≤ b)
    (b1 : b ≤ Real.pi) (E0 : 0 ≤ E) (E1 : E ≤ 1 / 1000) (hX : |X - c * Real.cos b| ≤ E * c) (hY : |Y - c * Real.sin b| ≤ E * c) :
    |fl (atan2 Y X) - b| ≤ 13 / 4 * E + 8 * eps53 := by
  obtain ⟨t, t0, t1, h1, h2, h3⟩ := ha Y X Y0
  obtain ⟨n, hn⟩ := angle_near (a := t) (b := b) (c := c) (s := Real.sqrt (X * X + Y * Y)) c0 (Real.sqrt_nonneg _) E0 E1 (by rw [h2]; exact hX)
    (by rw [h3]; exact hY)
  have pp := Real.pi_gt_d2
  have n0 : n = 0 := by
    have tb : |t - b| ≤ Real.pi := by rw [abs_le]; constructor <;> linarith
    have h3 := abs_add_le (t - b) (-(t - b - 2 * Real.pi * n))
    rw [show t - b + -(t - b - 2 * Real.pi * n) = 2 * Real.pi * n by ring, abs_neg, abs_mul, abs_of_pos (by linarith : 0 < 2 * Real.pi)] at h3
    have h5 : 2 * Real.pi * |(n : ℝ)| < 2 * Real.pi * 1 := by linarith
    have h6 := lt_of_mul_lt_mul_left h5 (by linarith)
    rw [← Int.cast_abs] at h6
    have h7 : |n| < 1 := by exact_mod_cast h6
    exact Int.abs_lt_one_iff.1 h7
  rw [n0, Int.cast_zero, mul_zero, sub_zero] at hn
  have h4 := angle_err h (by rw [abs_of_nonneg t0]; exact t1) h1
  have h5 := abs_add_le (fl (atan2 Y X) - t) (t - b)
  rw [sub_add_sub_cancel] at h5
  linarith

/-! ## Points -/

theorem mean_sq (x y : ℝ) : |x * y| ≤ (x * x + y * y) / 2 := by
  rw [abs_le]
  constructor <;> linarith [mul_self_nonneg (x + y), mul_self_nonneg (x - y), show (x + y) * (x + y) = x * x + 2 * (x * y) + y * y by ring,
    show (x - y) * (x - y) = x * x - 2 * (x * y) + y * y by ring]

/-- **C116.** `distance` of two points (`angle` of two vectors), computed with rounding, is within `2^-45` of the angle `θ` between them, if the
squares of their lengths are between 1/2 and 2. -/
theorem c116_point {fl : ℝ → ℝ} {atan2 : ℝ → ℝ → ℝ} (h : Rounding fl) (hn : ∀ x, 0 ≤ x → 0 ≤ fl x) (ha : NearArgUp atan2) {a b : Vec ℝ}
    (a1 : 1 / 2 ≤ dot a a) (a2 : dot a a ≤ 2) (b1 : 1 / 2 ≤ dot b b) (b2 : dot b b ≤ 2) {θ : ℝ} (t0 : 0 ≤ θ) (t1 : θ ≤ Real.pi)
    (ht : Real.sqrt (dot a a) * Real.sqrt (dot b b) * Real.cos θ = dot a b) : |Vec.angle fl Real.sqrt atan2 a b - θ| ≤ 1 / 2 ^ 45 := by
  have e0 := eps53_pos
  have e1 := eps53_le
  have t3 := tau200_le
  set s := Real.sqrt (dot a a) * Real.sqrt (dot b b) with hs
  have s0 : 0 ≤ s := by positivity
  have s2 : s ^ 2 = dot a a * dot b b := by rw [hs, mul_pow, Real.sq_sqrt (by linarith), Real.sq_sqrt (by linarith)]
  have sl : 1 / 2 ≤ s := by nlinarith
  have su : s ≤ 2 := by nlinarith
  have sn : 0 ≤ Real.sin θ := Real.sin_nonneg_of_nonneg_of_le_pi t0 t1
  have trig := Real.sin_sq_add_cos_sq θ
  -- the exact cross product
  set w : Vec ℝ := ⟨a.y * b.z - a.z * b.y, a.z * b.x - a.x * b.z, a.x * b.y - a.y * b.x⟩ with hw
  have hww : (s * Real.sin θ) ^ 2 = dot w w := by
    have : dot w w = s ^ 2 - dot a b ^ 2 := by rw [s2, hw]; unfold dot; ring
    rw [this, ← ht]
    linear_combination s ^ 2 * trig
  have two : ∀ x y p q : ℝ, x * x + y * y ≤ dot a a → p * p + q * q ≤ dot b b → |x * q| + |y * p| ≤ 2 := by
    intro x y p q h1 h2
    linarith [mean_sq x q, mean_sq y p]
  have ax := mul_self_nonneg a.x
  have ay := mul_self_nonneg a.y
  have az := mul_self_nonneg a.z
  have bx := mul_self_nonneg b.x
  have by' := mul_self_nonneg b.y
  have bz := mul_self_nonneg b.z
  have da : dot a a = a.x * a.x + a.y * a.y + a.z * a.z := rfl
  have db : dot b b = b.x * b.x + b.y * b.y + b.z * b.z := rfl
  have cx := cross_err h (two a.y a.z b.y b.z (by linarith) (by linarith))
  have cy := cross_err h (two a.z a.x b.z b.x (by linarith) (by linarith))
  have cz := cross_err h (two a.x a.y b.x b.y (by linarith) (by linarith))
  set v := Vec.cross fl a b with hv
  have sq5 : ∀ x : ℝ, |x| ≤ 5 * eps53 → x ^ 2 ≤ 25 * (eps53 * eps53) := by
    intro x hx
    have := pow_le_pow_left₀ (abs_nonneg x) hx 2
    rw [sq_abs] at this
    linarith
  set r := Real.sqrt (dot v v) with hr
  have vv : 0 ≤ dot v v := by
    unfold dot
    linarith [mul_self_nonneg v.x, mul_self_nonneg v.y, mul_self_nonneg v.z]
  have r2 : r ^ 2 = dot v v := Real.sq_sqrt vv
  have r0 : 0 ≤ r := Real.sqrt_nonneg _
  have l := length_lip (B := 9 * eps53) r0 (mul_nonneg s0 sn) r2 hww (by linarith) (by
    have := sq5 _ cx
    have := sq5 _ cy
    have := sq5 _ cz
    show (v.x - (a.y * b.z - a.z * b.y)) ^ 2 + (v.y - (a.z * b.x - a.x * b.z)) ^ 2 + (v.z - (a.x * b.y - a.y * b.x)) ^ 2 ≤ _
    have q := mul_pos e0 e0
    have g : (v.x - (a.y * b.z - a.z * b.y)) ^ 2 + (v.y - (a.z * b.x - a.x * b.z)) ^ 2 + (v.z - (a.x * b.y - a.y * b.x)) ^ 2 ≤
        75 * (eps53 * eps53) := by
      rw [hv]
      unfold Vec.cross
      dsimp only
      linarith
    linarith [show (9 * eps53) ^ 2 = 81 * (eps53 * eps53) by ring])
  have ss : s * Real.sin θ ≤ 2 := by
    have := mul_le_mul su (Real.sin_le_one θ) sn (by norm_num)
    linarith
  have rl := (abs_le.1 l).2
  have n1 := norm_err h r0 (by linarith) r2
  have hY : |Vec.norm fl Real.sqrt v - s * Real.sin θ| ≤ 19 * eps53 := by
    have := abs_add_le (Vec.norm fl Real.sqrt v - r) (r - s * Real.sin θ)
    rw [sub_add_sub_cancel] at this
    linarith
  have hX : |Vec.dot fl a b - s * Real.cos θ| ≤ 8 * eps53 := by
    have m : |a.x * b.x| + |a.y * b.y| + |a.z * b.z| ≤ 2 := by
      linarith [mean_sq a.x b.x, mean_sq a.y b.y, mean_sq a.z b.z]
    have := dot_err h m (by norm_num)
    rw [ht]
    refine this.trans ?_
    linarith
  have hE := mul_le_mul_of_nonneg_left sl (by linarith : 0 ≤ 40 * eps53)
  have fin := atan_err h ha (Y := Vec.norm fl Real.sqrt v) (X := Vec.dot fl a b) (b := θ) (c := s) (E := 40 * eps53) (hn _ (Real.sqrt_nonneg _))
    (by linarith) t0 t1 (by linarith) (by linarith) (by linarith) (by linarith)
  rw [show (1 : ℝ) / 2 ^ 45 = 256 * eps53 by unfold eps53; norm_num]
  unfold Vec.angle
  rw [← hv]
  linarith

/-- Two points about `2^-30` apart. -/
example : Rounding (rne : ℝ → ℝ) ∧ (∀ x : ℝ, 0 ≤ x → 0 ≤ (rne x : ℝ)) ∧ NearArgUp (fun y x => Complex.arg ⟨x, y⟩) ∧
    1 / 2 ≤ dot (⟨1, 0, 1 / 2 ^ 30⟩ : Vec ℝ) ⟨1, 0, 1 / 2 ^ 30⟩ ∧ dot (⟨1, 0, 1 / 2 ^ 30⟩ : Vec ℝ) ⟨1, 0, 1 / 2 ^ 30⟩ ≤ 2 :=
  ⟨rounding_rne, fun _ => rne_nonneg, nearArgUp_arg, by norm_num [dot], by norm_num [dot]⟩

/-- **C116.** The angle between two vectors does not depend on their order, and is zero for equal vectors. -/
theorem c116_symmetric {fl sqrt : ℝ → ℝ} (ho : ∀ x, fl (-x) = -fl x) (atan2 : ℝ → ℝ → ℝ) (a b : Vec ℝ) :
    Vec.angle fl sqrt atan2 a b = Vec.angle fl sqrt atan2 b a := by
  have c : ∀ p q : ℝ, fl (fl p - fl q) = -fl (fl q - fl p) := by
    intro p q
    rw [← ho, neg_sub]
  have n : Vec.norm fl sqrt (Vec.cross fl a b) = Vec.norm fl sqrt (Vec.cross fl b a) := by
    unfold Vec.norm Vec.norm2 Vec.dot Vec.cross
    dsimp only
    rw [c (a.y * b.z), c (a.z * b.x), c (a.x * b.y)]
    simp only [neg_mul_neg, mul_comm]
  unfold Vec.angle
  rw [n, c74_dot_comm]

theorem c116_self {fl sqrt : ℝ → ℝ} {atan2 : ℝ → ℝ → ℝ} (h0 : fl 0 = 0) (hn : ∀ x, 0 ≤ x → 0 ≤ fl x) (hs : sqrt 0 = 0)
    (ha : ∀ x, 0 ≤ x → atan2 0 x = 0) (a : Vec ℝ) : Vec.angle fl sqrt atan2 a a = 0 := by
  have c : Vec.cross fl a a = ⟨0, 0, 0⟩ := by
    unfold Vec.cross
    rw [mul_comm a.z a.y, mul_comm a.x a.z, mul_comm a.y a.x]
    simp only [sub_self, h0]
  have n : Vec.norm fl sqrt (⟨0, 0, 0⟩ : Vec ℝ) = 0 := by
    unfold Vec.norm Vec.norm2 Vec.dot
    simp only [mul_zero, h0, add_zero, hs]
  unfold Vec.angle
  rw [c, n, ha, h0]
  unfold Vec.dot
  have x := hn _ (mul_self_nonneg a.x)
  have y := hn _ (mul_self_nonneg a.y)
  have z := hn _ (mul_self_nonneg a.z)
  exact hn _ (add_nonneg (hn _ (add_nonneg x y)) z)

example : (rne (0 : ℝ) : ℝ) = 0 ∧ Real.sqrt 0 = 0 ∧ (∀ x : ℝ, (rne (-x) : ℝ) = -rne x) ∧
    ∀ x : ℝ, 0 ≤ x → Complex.arg ⟨x, 0⟩ = 0 :=
  ⟨rne_zero, Real.sqrt_zero, rne_odd, fun x hx => Complex.arg_ofReal_of_nonneg hx⟩

/-! ## Latitudes and longitudes -/

/-- The formula of `distance`. -/
theorem hav_eq (a b : LatLng ℝ) : Real.sin (1 / 2 * (b.lat - a.lat)) * Real.sin (1 / 2 * (b.lat - a.lat)) +
      Real.sin (1 / 2 * (b.lng - a.lng)) * Real.sin (1 / 2 * (b.lng - a.lng)) * Real.cos a.lat * Real.cos b.lat =
      Real.sin (ang (direction a.lat a.lng) (direction b.lat b.lng) / 2) ^ 2 := by
  have cc := cos_ang (unit_direction a.lat a.lng) (unit_direction b.lat b.lng)
  generalize ang (direction a.lat a.lng) (direction b.lat b.lng) = c at *
  have s1 : ∀ t : ℝ, Real.sin (1 / 2 * t) * Real.sin (1 / 2 * t) = (1 - Real.cos t) / 2 := by
    intro t
    have h1 := Real.cos_two_mul (1 / 2 * t)
    have h2 := Real.sin_sq_add_cos_sq (1 / 2 * t)
    rw [show 2 * (1 / 2 * t) = t by ring] at h1
    rw [h1]
    linear_combination h2
  have s2 : Real.sin (c / 2) ^ 2 = (1 - Real.cos c) / 2 := by rw [← s1]; rw [show 1 / 2 * c = c / 2 by ring]; ring
  rw [s1, s1, s2, cc, Real.cos_sub, Real.cos_sub]
  simp only [dot, direction]
  ring

/-- **C116.** `distance` of two valid latitudes and longitudes, computed with rounding, is within `2^-43` of the angle between the two points if that
is at most a third of a circle, and within `2^-20` in every case. -/
theorem c116_latlng {fl sin cos : ℝ → ℝ} {atan2 : ℝ → ℝ → ℝ} (h : Rounding fl) (hn : ∀ x, 0 ≤ x → 0 ≤ fl x) (hsin : NearRel sin Real.sin)
    (hcos : NearRel cos Real.cos) (ha : NearArgUp atan2) {a b : LatLng ℝ} (hva : a.isValid piF64 = true) (hvb : b.isValid piF64 = true) {d : ℝ}
    (hd : d = ang (direction a.lat a.lng) (direction b.lat b.lng)) :
    (d ≤ 2 * Real.pi / 3 → |LatLng.distance fl Real.sqrt sin cos atan2 a b - d| ≤ 1 / 2 ^ 43) ∧
      |LatLng.distance fl Real.sqrt sin cos atan2 a b - d| ≤ 1 / 2 ^ 20 := by
  have e0 := eps53_pos
  have e1 := eps53_le
  have t3 := tau200_le
  have pp := Real.pi_gt_d2
  have pl := Real.pi_lt_d2
  unfold LatLng.isValid at hva hvb
  simp only [Bool.and_eq_true, decide_eq_true_eq] at hva hvb
  have d0 : 0 ≤ d := by rw [hd]; exact ang_nonneg _ _
  have d1 : d ≤ Real.pi := by rw [hd]; exact ang_le_pi _ _
  have hp : (piF64 : ℝ) ≤ 315 / 100 := by unfold piF64; norm_num
  have l1 : |b.lat - a.lat| ≤ 63 / 10 := by linarith [abs_sub b.lat a.lat]
  have l2 : |b.lng - a.lng| ≤ 63 / 10 := by linarith [abs_sub b.lng a.lng]
  have c1 : 0 ≤ Real.cos a.lat := le_trans (by positivity) (cos_valid hva.1)
  have c2 : 0 ≤ Real.cos b.lat := le_trans (by positivity) (cos_valid hvb.1)
  set σ := Real.sin (d / 2) with hσ
  set κ := Real.cos (d / 2) with hκ
  have sn : 0 ≤ σ := Real.sin_nonneg_of_nonneg_of_le_pi (by linarith) (by linarith)
  have kn : 0 ≤ κ := Real.cos_nonneg_of_mem_Icc ⟨by linarith, by linarith⟩
  have s1 : σ ≤ 1 := Real.sin_le_one _
  have k1 : κ ≤ 1 := Real.cos_le_one _
  have trig : σ ^ 2 + κ ^ 2 = 1 := Real.sin_sq_add_cos_sq _
  have hx := hav_err h sn s1 (by have := hav_eq a b; rw [← hd] at this; exact this) (Real.abs_sin_le_one _) (Real.abs_sin_le_one _)
    (half_err h hsin l1) (half_err h hsin l2) c1 (Real.cos_le_one _) c2 (Real.cos_le_one _)
    (lib_err h hcos (Real.abs_cos_le_one a.lat)) (lib_err h hcos (Real.abs_cos_le_one b.lat))
  unfold LatLng.distance
  dsimp only
  set x := fl (fl (fl (sin (fl (1 / 2 * fl (b.lat - a.lat)))) * fl (sin (fl (1 / 2 * fl (b.lat - a.lat))))) +
    fl (fl (fl (fl (sin (fl (1 / 2 * fl (b.lng - a.lng)))) * fl (sin (fl (1 / 2 * fl (b.lng - a.lng))))) * fl (cos a.lat)) * fl (cos b.lat))) with hxd
  clear_value x
  clear hxd
  have q1 : eps53 * σ ≤ eps53 := mul_le_of_le_one_right e0.le s1
  have q2 : (40 * eps53) ^ 2 ≤ eps53 / 100 := by nlinarith
  have s2 : σ ^ 2 ≤ 1 := by nlinarith
  have s3 : 0 ≤ σ ^ 2 := sq_nonneg _
  have root : ∀ N ρ B : ℝ, 0 ≤ ρ → ρ ≤ 1 → |Real.sqrt N - ρ| ≤ B → B ≤ 1 / 100 → |fl (Real.sqrt N) - ρ| ≤ B + 2 * eps53 := by
    intro N ρ B r0 r1 hB b1
    have z1 := abs_sub_abs_le_abs_sub (Real.sqrt N) ρ
    rw [abs_of_nonneg r0] at z1
    have z2 := fl_err h (x := Real.sqrt N) (by linarith)
    have z3 := mul_le_mul_of_nonneg_right (by linarith : |Real.sqrt N| ≤ 11 / 10) e0.le
    have z4 := abs_add_le (fl (Real.sqrt N) - Real.sqrt N) (Real.sqrt N - ρ)
    rw [sub_add_sub_cancel] at z4
    linarith
  have hY := root x σ _ sn s1 (sqrt_tol sn (by linarith) (by linarith) hx) (by linarith)
  have hx1 : |x - σ ^ 2| ≤ 65 * eps53 := by linarith
  have hN : |max (fl (1 - x)) 0 - κ ^ 2| ≤ 67 * eps53 := by
    have z1 := abs_le.1 hx1
    have z2 := fl_err h (x := 1 - x) (by rw [abs_le]; constructor <;> linarith)
    have z3 := mul_le_mul_of_nonneg_right (show |1 - x| ≤ 11 / 10 by rw [abs_le]; constructor <;> linarith) e0.le
    have z4 := abs_le.1 (z2.trans (by linarith : _ ≤ 2 * eps53))
    have z5 : |fl (1 - x) - κ ^ 2| ≤ 67 * eps53 := by rw [abs_le]; constructor <;> linarith
    refine le_trans ?_ z5
    rcases max_cases (fl (1 - x)) 0 with ⟨m, _⟩ | ⟨m, m'⟩
    · rw [m]
    · rw [m, abs_of_nonpos (by linarith [sq_nonneg κ]), abs_of_nonpos (by linarith [sq_nonneg κ])]
      linarith
  generalize max (fl (1 - x)) 0 = N at *
  have fin : ∀ E : ℝ, 110 * eps53 ≤ E → E ≤ 1 / 1000 → |fl (Real.sqrt N) - κ| ≤ E →
      |fl (2 * fl (atan2 (fl (Real.sqrt x)) (fl (Real.sqrt N)))) - d| ≤ 13 / 2 * E + 21 * eps53 := by
    intro E E0 E1 hX
    have z1 := atan_err h ha (Y := fl (Real.sqrt x)) (X := fl (Real.sqrt N)) (b := d / 2) (c := 1) (E := E) (hn _ (Real.sqrt_nonneg _)) one_pos
      (by linarith) (by linarith) (by linarith) E1 (by rw [one_mul, mul_one]; exact hX) (by rw [one_mul, mul_one]; linarith)
    generalize fl (atan2 (fl (Real.sqrt x)) (fl (Real.sqrt N))) = t at *
    have z2 := abs_le.1 z1
    have z3 : |2 * t| ≤ 4 := by rw [abs_le]; constructor <;> linarith
    have z4 := fl_err h (x := 2 * t) (by linarith)
    have z5 := mul_le_mul_of_nonneg_right z3 e0.le
    have z6 := abs_le.1 (z4.trans (by linarith : _ ≤ 4 * eps53 + eps53 / 10 ^ 40))
    rw [abs_le]
    constructor <;> linarith
  constructor
  · intro hd3
    have kh : 1 / 2 ≤ κ := by
      rw [hκ, ← Real.cos_pi_div_three]
      exact Real.cos_le_cos_of_nonneg_of_le_pi (by linarith) (by linarith) (by linarith)
    have z := sqrt_tol (N := N) (A := 134 * eps53) (B := 0) kn (by linarith) le_rfl (by
      have := mul_le_mul_of_nonneg_left kh (by linarith : 0 ≤ 134 * eps53)
      linarith)
    have y := root N κ _ kn k1 z (by linarith)
    rw [show (1 : ℝ) / 2 ^ 43 = 1024 * eps53 by unfold eps53; norm_num]
    have := fin (136 * eps53) (by linarith) (by linarith) (by linarith)
    linarith
  · have z := sqrt_tol (N := N) (A := 0) (B := 1 / 2 ^ 23) kn le_rfl (by positivity) (by
      have : 67 * eps53 ≤ (1 / 2 ^ 23) ^ 2 := by unfold eps53; norm_num
      linarith)
    have y := root N κ _ kn k1 z (by norm_num)
    have e2 : eps53 ≤ 1 / 2 ^ 53 := le_rfl
    have := fin (1 / 2 ^ 23 + 2 * eps53) (by norm_num at *; linarith) (by norm_num at *; linarith) (by linarith)
    norm_num at *
    linarith

/-- The positions of the example are valid: a point next to the north pole and one near the antimeridian. -/
example : LatLng.isValid piF64 (⟨piF64 / 2, 3⟩ : LatLng ℝ) = true ∧ LatLng.isValid piF64 (⟨-1 / 2, -piF64⟩ : LatLng ℝ) = true := by
  unfold LatLng.isValid piF64
  constructor <;> norm_num [abs_of_pos, abs_of_neg]

/-- **C116.** With IEEE rounding (and an `atan2` that is correctly rounded) `distance` is between zero and the double `π`, and zero for equal positions. -/
theorem c116_range {sin cos : ℝ → ℝ} {atan2 : ℝ → ℝ → ℝ} (h : IsArg atan2) (h0 : sin 0 = 0) (a b : LatLng ℝ) :
    0 ≤ LatLng.distance rne Real.sqrt sin cos atan2 a b ∧ LatLng.distance rne Real.sqrt sin cos atan2 a b ≤ piF64 ∧
      LatLng.distance rne Real.sqrt sin cos atan2 a a = 0 := by
  have up : ∀ y x : ℝ, 0 ≤ y → 0 ≤ x → 0 ≤ atan2 y x ∧ atan2 y x ≤ Real.pi / 2 := by
    intro y x hy hx
    refine ⟨?_, (abs_le.1 ((arg_range h y x).2 hx)).2⟩
    have hy' : (Complex.mk x y).im = y := rfl
    have n := Complex.norm_mul_cos_arg ⟨x, y⟩
    have m := Complex.norm_mul_sin_arg ⟨x, y⟩
    rcases (norm_nonneg (Complex.mk x y)).eq_or_lt with z | z
    · rw [← z, zero_mul] at n m
      change 0 = x at n
      change 0 = y at m
      rw [← n, ← m, h.2]
    · have := h.1 _ _ z (Complex.neg_pi_lt_arg ⟨x, y⟩) (Complex.arg_le_pi _)
      rw [n, m] at this
      change atan2 y x = _ at this
      rw [this]
      exact Complex.arg_nonneg_iff.2 hy
  refine ⟨?_, ?_, ?_⟩
  · unfold LatLng.distance
    exact rne_nonneg (mul_nonneg (by norm_num) (rne_nonneg (up _ _ (rne_nonneg (Real.sqrt_nonneg _)) (rne_nonneg (Real.sqrt_nonneg _))).1))
  · unfold LatLng.distance
    dsimp only
    have z := rne_mono (up _ _ (rne_nonneg (Real.sqrt_nonneg (rne (rne (rne (sin (rne (1 / 2 * rne (b.lat - a.lat)))) *
      rne (sin (rne (1 / 2 * rne (b.lat - a.lat))))) + rne (rne (rne (rne (sin (rne (1 / 2 * rne (b.lng - a.lng)))) *
      rne (sin (rne (1 / 2 * rne (b.lng - a.lng))))) * rne (cos a.lat)) * rne (cos b.lat)))))) (rne_nonneg (Real.sqrt_nonneg (max (rne (1 - rne (rne (rne (sin (rne (1 / 2 * rne (b.lat - a.lat)))) *
      rne (sin (rne (1 / 2 * rne (b.lat - a.lat))))) + rne (rne (rne (rne (sin (rne (1 / 2 * rne (b.lng - a.lng)))) *
      rne (sin (rne (1 / 2 * rne (b.lng - a.lng))))) * rne (cos a.lat)) * rne (cos b.lat))))) 0)))).2
    rw [pi_f64.2] at z
    have y := rne_mono (mul_le_mul_of_nonneg_left z (by norm_num : (0 : ℝ) ≤ 2))
    rw [show (2 : ℝ) * (piF64 / 2) = piF64 by ring] at y
    refine y.trans (le_of_eq ?_)
    rw [← pi_f64.1, rne_rne]
  · unfold LatLng.distance
    simp only [sub_self, rne_zero, mul_zero, h0, zero_mul, add_zero, Real.sqrt_zero, sub_zero]
    have : atan2 0 (rne (Real.sqrt (max (rne 1) 0))) = 0 := by
      have := h.1 1 0 one_pos (by linarith [Real.pi_pos]) Real.pi_pos.le
      rw [Real.sin_zero, Real.cos_zero, mul_zero, mul_one] at this
      rw [rne_one, max_eq_left zero_le_one, Real.sqrt_one, rne_one, this]
    rw [this]
    simp only [rne_zero, mul_zero]

example : LatLng.distance rne Real.sqrt Real.sin Real.cos (fun y x => Complex.arg ⟨x, y⟩) ⟨-1, 3⟩ ⟨1, 0⟩ ≤ piF64 :=
  (c116_range isArg_arg Real.sin_zero _ _).2.1

end Verif
