import Verif.Properties.VecRound
import Verif.Properties.DistRound
import Verif.Properties.EdgeInterpolate

/-!
# C118: interpolation along an edge with rounding
-/

namespace Verif
open Spec EdgeUtil

theorem dot_self_ge (v : Vec ℝ) : 0 ≤ dot v v := by
  unfold dot; have := mul_self_nonneg v.x; have := mul_self_nonneg v.y; have := mul_self_nonneg v.z; linarith

/-- Normalizing a vector close to a unit vector. -/
theorem near_normalize {fl : ℝ → ℝ} (h : Rounding fl) {v w : Vec ℝ} {k : ℝ} (k0 : 0 ≤ k) (k1 : k ≤ 1 / 10 ^ 6) (hw : UnitV w)
    (hv : ∀ ax, |comp v ax - comp w ax| ≤ k) :
    (∀ ax, |comp (v.normalize fl Real.sqrt) ax - comp w ax| ≤ 11 / 4 * k + 6 * eps53) ∧
      |dot (v.normalize fl Real.sqrt) (v.normalize fl Real.sqrt) - 1| ≤ 105 / 10 * eps53 := by
  have e0 := eps53_pos
  have e1 := eps53_le
  have n1 := eta75_tiny
  have v1 : |v.x - w.x| ≤ k := hv .X
  have v2 : |v.y - w.y| ≤ k := hv .Y
  have v3 : |v.z - w.z| ≤ k := hv .Z
  have gs := Real.sq_sqrt (dot_self_ge v)
  have s0 := Real.sqrt_nonneg (dot v v)
  have len := length_lip (v := v) (w := w) s0 zero_le_one gs (by rw [one_pow]; exact hw.symm) (B := 1733 / 1000 * k) (by positivity) (by
    have q : ∀ x : ℝ, |x| ≤ k → x ^ 2 ≤ k ^ 2 := fun x hx => by rw [← sq_abs]; exact pow_le_pow_left₀ (abs_nonneg _) hx 2
    have := q _ v1
    have := q _ v2
    have := q _ v3
    have := sq_nonneg k
    linarith [show (1733 / 1000 * k) ^ 2 = 3003289 / 1000000 * k ^ 2 by ring])
  generalize Real.sqrt (dot v v) = r at *
  have l := abs_le.1 len
  have r0 : 999 / 1000 ≤ r := by linarith
  have r1 : r ≤ 1001 / 1000 := by linarith
  have B : (1 : ℝ) / 2 ^ 400 ≤ r := le_trans (le_trans (one_div_le_one_div_of_le (by positivity) (pow_le_pow_right₀ (by norm_num) (by norm_num : 1 ≤ 400)))
    (by norm_num)) r0
  have C : r ≤ 2 ^ 400 := r1.trans (le_trans (by norm_num : (1001 : ℝ) / 1000 ≤ 2 ^ 1) (pow_le_pow_right₀ (by norm_num) (by norm_num)))
  obtain ⟨a, b, c⟩ := normalize_gen h B C gs
  refine ⟨?_, normalize_len h B C gs⟩
  have rp : 0 < r := by linarith
  clear B C
  obtain ⟨c1, c2, c3⟩ := comp_le rp.le gs.ge
  obtain ⟨d1, d2, d3⟩ := comp_le zero_le_one (by rw [one_pow]; exact le_of_eq hw : dot w w ≤ 1 ^ 2)
  have fin : ∀ X x y : ℝ, |X - x / r| ≤ 5 * eps53 * (|x| / r) + eta75 → |x| ≤ r → |x - y| ≤ k → |X - y| ≤ 11 / 4 * k + 6 * eps53 := by
    intro X x y h1 h2 h3
    have m1 : |x| / r ≤ 1 := (div_le_one rp).2 h2
    have m2 := mul_le_mul_of_nonneg_left m1 e0.le
    have m3 : |x / r - x| ≤ 1733 / 1000 * k := by
      rw [show x / r - x = x / r * (1 - r) by field_simp, abs_mul, abs_div, abs_of_pos rp, abs_sub_comm]
      calc |x| / r * |r - 1| ≤ 1 * |r - 1| := mul_le_mul_of_nonneg_right m1 (abs_nonneg _)
        _ ≤ 1733 / 1000 * k := by linarith
    have := abs_add_three (X - x / r) (x / r - x) (x - y)
    rw [sub_add_sub_cancel, sub_add_sub_cancel] at this
    linarith
  intro ax
  cases ax
  · exact fin _ _ _ a c1 v1
  · exact fin _ _ _ b c2 v2
  · exact fin _ _ _ c c3 v3

/-- A component of the tangent. -/
theorem tangent_comp {fl : ℝ → ℝ} (h : Rounding fl) {n₁ n₂ g₁ g₂ a₁ a₂ u₁ u₂ N r : ℝ} (N0 : 1 / 2 ^ 300 ≤ N) (N1 : N ≤ 16)
    (h1 : |n₁ - N * g₁| ≤ 55 / 10 * eps53 * N) (h2 : |n₂ - N * g₂| ≤ 55 / 10 * eps53 * N) (hn : n₁ * n₁ + n₂ * n₂ ≤ (1001 / 1000 * N) ^ 2)
    (ha : a₁ * a₁ + a₂ * a₂ ≤ (1001 / 1000) ^ 2) (e1 : a₁ = r * u₁) (e2 : a₂ = r * u₂) (hr : |r - 1| ≤ 9 * eps53) (hg : |g₁ * u₂ - g₂ * u₁| ≤ 1) :
    |fl (fl (n₁ * a₂) - fl (n₂ * a₁)) - N * (g₁ * u₂ - g₂ * u₁)| ≤ 222 / 10 * eps53 * N := by
  have e0 := eps53_pos
  have e1' := eps53_le
  have Np : 0 < N := lt_of_lt_of_le (by positivity) N0
  have M := cauchy2 (a := n₁) (b := n₂) (c := a₁) (d := a₂) (S := 1001 / 1000 * N) (D := 1001 / 1000) (by positivity) (by norm_num) hn ha
  have n : eta75 ≤ 1001 / 1000 * N * (1001 / 1000) * eps53 / 1000 := by
    refine eta75_le.trans ?_
    rw [mul_div_assoc]
    refine mul_le_mul_of_nonneg_right (le_trans ((one_div_le_one_div_of_le (by positivity) (pow_le_pow_right₀ (by norm_num) (by norm_num))).trans N0) ?_)
      (by positivity)
    linarith
  clear N0
  have B : (64 : ℝ) ≤ big1000 := by
    calc (64 : ℝ) = 2 ^ 6 := by norm_num
      _ ≤ big1000 := pow_le_pow_right₀ (by norm_num) (by norm_num)
  have c := cross_gen h M (by linarith) n
  have a1 : |a₁| ≤ 1001 / 1000 := abs_le_of_sq_le_sq (by have := mul_self_nonneg a₂; rw [pow_two]; linarith) (by norm_num)
  have a2 : |a₂| ≤ 1001 / 1000 := abs_le_of_sq_le_sq (by have := mul_self_nonneg a₁; rw [pow_two]; linarith) (by norm_num)
  have m1 := mul_le_mul h1 a2 (abs_nonneg _) (by positivity)
  have m2 := mul_le_mul h2 a1 (abs_nonneg _) (by positivity)
  rw [← abs_mul] at m1 m2
  have m3 := abs_sub ((n₁ - N * g₁) * a₂) ((n₂ - N * g₂) * a₁)
  have m4 : |N * (g₁ * u₂ - g₂ * u₁) * (r - 1)| ≤ N * (9 * eps53) := by
    rw [abs_mul, abs_mul, abs_of_pos Np]
    exact mul_le_mul (by have := mul_le_mul_of_nonneg_left hg Np.le; linarith) hr (abs_nonneg _) Np.le
  have s := abs_add_three (fl (fl (n₁ * a₂) - fl (n₂ * a₁)) - (n₁ * a₂ - n₂ * a₁)) ((n₁ - N * g₁) * a₂ - (n₂ - N * g₂) * a₁) (N * (g₁ * u₂ - g₂ * u₁) * (r - 1))
  rw [show fl (fl (n₁ * a₂) - fl (n₂ * a₁)) - (n₁ * a₂ - n₂ * a₁) + ((n₁ - N * g₁) * a₂ - (n₂ - N * g₂) * a₁) + N * (g₁ * u₂ - g₂ * u₁) * (r - 1) =
    fl (fl (n₁ * a₂) - fl (n₂ * a₁)) - N * (g₁ * u₂ - g₂ * u₁) by rw [e1, e2]; ring] at s
  have := mul_nonneg Np.le e0.le
  linarith

/-- The factor of the tangent. -/
theorem factor_gen {fl : ℝ → ℝ} (h : Rounding fl) {s S n N : ℝ} (N0 : 1 / 2 ^ 300 ≤ N) (N1 : N ≤ 16) (hS : |S| ≤ 1) (hs : |s - S| ≤ 401 / 100 * eps53)
    (hn : |n - N| ≤ 41 * eps53 * N) : |fl (s / n) * N - S| ≤ 467 / 10 * eps53 := by
  have e0 := eps53_pos
  have e1 := eps53_le
  have t1 := eta75_tiny
  have t0 := eta75_pos
  have Np : 0 < N := lt_of_lt_of_le (by positivity) N0
  have i := inv_rel Np (k := 41 * eps53) (by linarith) hn
  have NB : 1 / N ≤ 2 ^ 300 := by rw [div_le_iff₀ Np]; rwa [div_le_iff₀' (by positivity)] at N0
  have j := mul_le_mul_of_nonneg_right i Np.le
  rw [show 1002 / 1000 * (41 * eps53) * (1 / N) * N = 41082 / 1000 * eps53 by field_simp; ring] at j
  have j2 : |1 / n * N - 1| ≤ 41082 / 1000 * eps53 := by
    rw [← abs_of_pos Np, ← abs_mul, abs_of_pos Np, sub_mul, one_div_mul_cancel Np.ne'] at j
    exact j
  have s1 := abs_sub_abs_le_abs_sub s S
  have s2 : |s| ≤ 1001 / 1000 := by linarith
  have k := mul_le_mul s2 j2 (abs_nonneg _) (by norm_num)
  rw [← abs_mul] at k
  have q := abs_add_le (s * (1 / n * N - 1)) (s - S)
  rw [show s * (1 / n * N - 1) + (s - S) = s / n * N - S by ring] at q
  have q2 := abs_sub_abs_le_abs_sub (s / n * N) S
  have big : |s / n| ≤ big1000 := by
    have b1 : |s / n| * N ≤ 2 := by rw [← abs_of_pos Np, ← abs_mul]; linarith
    have b2 : |s / n| ≤ 2 * (1 / N) := by rw [mul_one_div, le_div_iff₀ Np]; exact b1
    refine b2.trans ((mul_le_mul_of_nonneg_left NB (by norm_num)).trans ?_)
    rw [mul_comm, ← pow_succ]
    exact pow_le_pow_right₀ (by norm_num) (by norm_num)
  have f := fl_gen h big le_rfl
  have g := mul_le_mul_of_nonneg_right f Np.le
  have tN := mul_le_mul_of_nonneg_left N1 t0.le
  have e2 : |s / n| * N = |s / n * N| := by rw [abs_mul, abs_of_pos Np]
  have e3 : |fl (s / n) - s / n| * N = |fl (s / n) * N - s / n * N| := by rw [← sub_mul, abs_mul, abs_of_pos Np]
  rw [e3, add_mul, mul_right_comm, e2] at g
  clear N0 NB
  have r := mul_le_mul_of_nonneg_right (by linarith : |s / n * N| ≤ 1001 / 1000) e0.le
  have u := abs_add_le (fl (s / n) * N - s / n * N) (s / n * N - S)
  rw [sub_add_sub_cancel] at u
  linarith

/-- A component of the sum. -/
theorem interp_comp {fl : ℝ → ℝ} (h : Rounding fl) {a u c C T e m S N r : ℝ} (Np : 0 < N) (ea : a = r * u) (hr : |r - 1| ≤ 9 * eps53)
    (hu : |u| ≤ 1) (he : |e| ≤ 1) (hC : |C| ≤ 1) (hS : |S| ≤ 1) (hc : |c - C| ≤ 401 / 100 * eps53) (hT : |T - N * e| ≤ 222 / 10 * eps53 * N)
    (hm : |m * N - S| ≤ 467 / 10 * eps53) : |fl (fl (a * c) + fl (T * m)) - (C * u + S * e)| ≤ 88 * eps53 := by
  have e0 := eps53_pos
  have e1 := eps53_le
  have t1 := tau200_le
  -- the first product
  have p1 : |a - u| ≤ 9 * eps53 := by
    rw [ea, show r * u - u = (r - 1) * u by ring, abs_mul]
    calc |r - 1| * |u| ≤ |r - 1| * 1 := mul_le_mul_of_nonneg_left hu (abs_nonneg _)
      _ ≤ 9 * eps53 := by linarith
  have c1 := abs_sub_abs_le_abs_sub c C
  have p2 := mul_le_mul p1 (by linarith : |c| ≤ 1001 / 1000) (abs_nonneg _) (by positivity)
  have p3 := mul_le_mul hu hc (abs_nonneg _) (by norm_num)
  rw [← abs_mul] at p2 p3
  have p4 := abs_add_le ((a - u) * c) (u * (c - C))
  rw [show (a - u) * c + u * (c - C) = a * c - C * u by ring] at p4
  have uc : |C * u| ≤ 1 := by rw [abs_mul]; exact mul_le_one₀ hC (abs_nonneg _) hu
  have p5 := abs_sub_abs_le_abs_sub (a * c) (C * u)
  have f1 := fl_err h (x := a * c) (by linarith)
  have m1 := mul_le_mul_of_nonneg_right (by linarith : |a * c| ≤ 1001 / 1000) e0.le
  have p6 := abs_add_le (fl (a * c) - a * c) (a * c - C * u)
  rw [sub_add_sub_cancel] at p6
  -- the second product
  have q0 : |T / N - e| ≤ 222 / 10 * eps53 := by
    rw [show T / N - e = (T - N * e) / N by field_simp, abs_div, abs_of_pos Np, div_le_iff₀ Np]
    exact hT
  have d1 := abs_sub_abs_le_abs_sub (m * N) S
  have q2 := mul_le_mul q0 (by linarith : |m * N| ≤ 1001 / 1000) (abs_nonneg _) (by positivity)
  have q3 := mul_le_mul he hm (abs_nonneg _) (by norm_num)
  rw [← abs_mul] at q2 q3
  have q4 := abs_add_le ((T / N - e) * (m * N)) (e * (m * N - S))
  rw [show (T / N - e) * (m * N) + e * (m * N - S) = T * m - S * e by field_simp; ring] at q4
  have ue : |S * e| ≤ 1 := by rw [abs_mul]; exact mul_le_one₀ hS (abs_nonneg _) he
  have q5 := abs_sub_abs_le_abs_sub (T * m) (S * e)
  have f2 := fl_err h (x := T * m) (by linarith)
  have m2 := mul_le_mul_of_nonneg_right (by linarith : |T * m| ≤ 1001 / 1000) e0.le
  have q6 := abs_add_le (fl (T * m) - T * m) (T * m - S * e)
  rw [sub_add_sub_cancel] at q6
  -- the sum
  have s1 := abs_add_le (fl (a * c) - C * u) (fl (T * m) - S * e)
  rw [show fl (a * c) - C * u + (fl (T * m) - S * e) = fl (a * c) + fl (T * m) - (C * u + S * e) by ring] at s1
  have s2 := abs_sub_abs_le_abs_sub (fl (a * c) + fl (T * m)) (C * u + S * e)
  have s3 := abs_add_le (C * u) (S * e)
  have f3 := fl_err h (x := fl (a * c) + fl (T * m)) (by linarith)
  have m3 := mul_le_mul_of_nonneg_right (by linarith : |fl (a * c) + fl (T * m)| ≤ 201 / 100) e0.le
  have s4 := abs_add_le (fl (fl (a * c) + fl (T * m)) - (fl (a * c) + fl (T * m))) (fl (a * c) + fl (T * m) - (C * u + S * e))
  rw [sub_add_sub_cancel] at s4
  linarith

/-- The point at an angle from `a`, given a vector `n` close to a multiple of the unit normal `g`. -/
theorem interp_gen {fl sin cos : ℝ → ℝ} (h : Rounding fl) (hsin : NearRel sin Real.sin) (hcos : NearRel cos Real.cos) {a u g n : Vec ℝ} {N r ax : ℝ}
    (hu : UnitV u) (hg : UnitV g) (gu : dot g u = 0) (ha : a = smul r u) (hr : |r - 1| ≤ 9 * eps53) (N0 : 1 / 2 ^ 300 ≤ N) (N1 : N ≤ 16)
    (hn : ∀ i, |comp n i - N * comp g i| ≤ 55 / 10 * eps53 * N) (i : Vec.Axis) :
    |comp (Vec.add fl (Vec.scale fl a (fl (cos ax))) (Vec.scale fl (Vec.cross fl n a) (fl (fl (sin ax) / Vec.norm fl Real.sqrt (Vec.cross fl n a))))) i -
      comp (lin (Real.cos ax) u (Real.sin ax) (cross g u)) i| ≤ 88 * eps53 := by
  have e0 := eps53_pos
  have e1 := eps53_le
  have t1 := tau200_le
  have Np : 0 < N := lt_of_lt_of_le (by positivity) N0
  have Ne := mul_le_mul_of_nonneg_left e1 Np.le
  have n1 : |n.x - N * g.x| ≤ 55 / 10 * eps53 * N := hn .X
  have n2 : |n.y - N * g.y| ≤ 55 / 10 * eps53 * N := hn .Y
  have n3 : |n.z - N * g.z| ≤ 55 / 10 * eps53 * N := hn .Z
  have he : UnitV (cross g u) := by
    have := cross_sq g u
    rw [show dot g g = 1 from hg, show dot u u = 1 from hu, gu] at this
    unfold UnitV
    linarith
  obtain ⟨u1, u2, u3⟩ := comp_le zero_le_one (by rw [one_pow]; exact le_of_eq hu : dot u u ≤ 1 ^ 2)
  obtain ⟨d1, d2, d3⟩ := comp_le zero_le_one (by rw [one_pow]; exact le_of_eq he : dot (cross g u) (cross g u) ≤ 1 ^ 2)
  -- the length of the normal
  have ng : (N : ℝ) ^ 2 = dot (smul N g) (smul N g) := by
    have : dot (smul N g) (smul N g) = N ^ 2 * dot g g := by unfold dot smul; ring
    rw [this, show dot g g = 1 from hg, mul_one]
  have sq3 : ∀ (x y z k B : ℝ), |x| ≤ k → |y| ≤ k → |z| ≤ k → 3 * k ^ 2 ≤ B ^ 2 → x ^ 2 + y ^ 2 + z ^ 2 ≤ B ^ 2 := by
    intro x y z k B hx hy hz hB
    have q : ∀ x : ℝ, |x| ≤ k → x ^ 2 ≤ k ^ 2 := fun x hx => by rw [← sq_abs]; exact pow_le_pow_left₀ (abs_nonneg _) hx 2
    have := q _ hx
    have := q _ hy
    have := q _ hz
    linarith
  have Ne0 := mul_nonneg e0.le Np.le
  have Ns := sq_nonneg (eps53 * N)
  have ln := length_lip (v := n) (w := smul N g) (Real.sqrt_nonneg _) Np.le (Real.sq_sqrt (dot_self_ge n)) ng (B := 10 * (eps53 * N)) (by linarith)
    (sq3 _ _ _ _ _ n1 n2 n3 (by
      rw [show (55 / 10 * eps53 * N) ^ 2 = 3025 / 100 * (eps53 * N) ^ 2 by ring, mul_pow]; linarith))
  have nn : dot n n ≤ (1001 / 1000 * N) ^ 2 := by
    rw [← Real.sq_sqrt (dot_self_ge n)]
    refine pow_le_pow_left₀ (Real.sqrt_nonneg _) ?_ 2
    have := (abs_le.1 ln).2
    linarith
  have aa : dot a a ≤ (1001 / 1000) ^ 2 := by
    have : dot a a = r ^ 2 * dot u u := by rw [ha]; unfold dot smul; ring
    rw [this, show dot u u = 1 from hu, mul_one, ← sq_abs]
    refine pow_le_pow_left₀ (abs_nonneg _) ?_ 2
    have := abs_le.1 hr
    rw [abs_le]
    constructor <;> linarith
  have ax' : a.x = r * u.x := by rw [ha]; rfl
  have ay' : a.y = r * u.y := by rw [ha]; rfl
  have az' : a.z = r * u.z := by rw [ha]; rfl
  have dn : dot n n = n.x * n.x + n.y * n.y + n.z * n.z := rfl
  have da : dot a a = a.x * a.x + a.y * a.y + a.z * a.z := rfl
  have x0 := mul_self_nonneg n.x
  have y0 := mul_self_nonneg n.y
  have z0 := mul_self_nonneg n.z
  have x0' := mul_self_nonneg a.x
  have y0' := mul_self_nonneg a.y
  have z0' := mul_self_nonneg a.z
  have T1 := tangent_comp h N0 N1 n2 n3 (by linarith) (by linarith) ay' az' hr d1
  have T2 := tangent_comp h N0 N1 n3 n1 (by linarith) (by linarith) az' ax' hr d2
  have T3 := tangent_comp h N0 N1 n1 n2 (by linarith) (by linarith) ax' ay' hr d3
  have T1' : |(Vec.cross fl n a).x - N * (cross g u).x| ≤ 222 / 10 * eps53 * N := T1
  have T2' : |(Vec.cross fl n a).y - N * (cross g u).y| ≤ 222 / 10 * eps53 * N := T2
  have T3' : |(Vec.cross fl n a).z - N * (cross g u).z| ≤ 222 / 10 * eps53 * N := T3
  generalize Vec.cross fl n a = T at *
  generalize cross g u = e at *
  have ne : (N : ℝ) ^ 2 = dot (smul N e) (smul N e) := by
    have : dot (smul N e) (smul N e) = N ^ 2 * dot e e := by unfold dot smul; ring
    rw [this, show dot e e = 1 from he, mul_one]
  have lt := length_lip (v := T) (w := smul N e) (Real.sqrt_nonneg _) Np.le (Real.sq_sqrt (dot_self_ge T)) ne (B := 38453 / 1000 * (eps53 * N)) (by linarith)
    (sq3 _ _ _ _ _ T1' T2' T3' (by
      rw [show (222 / 10 * eps53 * N) ^ 2 = 49284 / 100 * (eps53 * N) ^ 2 by ring, mul_pow]; linarith))
  have gs := Real.sq_sqrt (dot_self_ge T)
  generalize Real.sqrt (dot T T) = L at *
  have lt' := abs_le.1 lt
  have L0 : 1 / 2 * N ≤ L := by clear N0; linarith
  have L1 : L ≤ 17 := by clear N0; linarith
  have B : (1 : ℝ) / 2 ^ 400 ≤ L := by
    refine le_trans ?_ L0
    have k : (1 : ℝ) / 2 ^ 400 ≤ 1 / 2 * (1 / 2 ^ 300) := by
      rw [one_div_mul_one_div, mul_comm, ← pow_succ]
      exact one_div_le_one_div_of_le (by positivity) (pow_le_pow_right₀ (by norm_num) (by norm_num))
    exact k.trans (mul_le_mul_of_nonneg_left N0 (by norm_num))
  have C : L ≤ 2 ^ 400 := L1.trans (le_trans (by norm_num : (17 : ℝ) ≤ 2 ^ 5) (pow_le_pow_right₀ (by norm_num) (by norm_num)))
  have nrm := norm_gen h B C gs
  clear B C
  have nL := mul_le_mul_of_nonneg_left (by clear N0; linarith : L ≤ 1001 / 1000 * N) (by positivity : 0 ≤ 254 / 100 * eps53)
  have tri := abs_add_le (Vec.norm fl Real.sqrt T - L) (L - N)
  rw [sub_add_sub_cancel] at tri
  have hnT : |Vec.norm fl Real.sqrt T - N| ≤ 41 * eps53 * N := by clear N0; linarith
  have sl := lib_err h hsin (x := ax) (Real.abs_sin_le_one ax)
  have cl := lib_err h hcos (x := ax) (Real.abs_cos_le_one ax)
  have b1 := mul_le_mul_of_nonneg_left (Real.abs_sin_le_one ax) e0.le
  have b2 := mul_le_mul_of_nonneg_left (Real.abs_cos_le_one ax) e0.le
  have sl' : |fl (sin ax) - Real.sin ax| ≤ 401 / 100 * eps53 := by clear N0; linarith
  have cl' : |fl (cos ax) - Real.cos ax| ≤ 401 / 100 * eps53 := by clear N0; linarith
  have fac := factor_gen h N0 N1 (Real.abs_sin_le_one ax) sl' hnT
  cases i
  · exact interp_comp h Np ax' hr u1 d1 (Real.abs_cos_le_one ax) (Real.abs_sin_le_one ax) cl' T1' fac
  · exact interp_comp h Np ay' hr u2 d2 (Real.abs_cos_le_one ax) (Real.abs_sin_le_one ax) cl' T2' fac
  · exact interp_comp h Np az' hr u3 d3 (Real.abs_cos_le_one ax) (Real.abs_sin_le_one ax) cl' T3' fac

/-- Two vectors that are not parallel, in an orthonormal basis of their plane. -/
theorem plane_basis {a b : Vec ℝ} {G : ℝ} (G0 : 0 < G) (hG : G ^ 2 = dot (cross a b) (cross a b)) :
    ∃ u g θ, UnitV u ∧ UnitV g ∧ dot g u = 0 ∧ 0 < θ ∧ θ < Real.pi ∧ a = smul (Real.sqrt (dot a a)) u ∧
      b = smul (Real.sqrt (dot b b)) (lin (Real.cos θ) u (Real.sin θ) (cross g u)) ∧ cross a b = smul G g ∧
      Real.sqrt (dot a a) * Real.sqrt (dot b b) * Real.cos θ = dot a b := by
  have lag := cross_sq a b
  rw [← hG] at lag
  have G2 : 0 < G ^ 2 := by positivity
  have ab0 : 0 < dot a a * dot b b := by have := sq_nonneg (dot a b); linarith
  have a0 : 0 < dot a a := by
    rcases (dot_self_ge a).lt_or_eq with h | h
    · exact h
    · rw [← h, zero_mul] at ab0; exact absurd ab0 (lt_irrefl _)
  have b0 : 0 < dot b b := by
    rcases (dot_self_ge b).lt_or_eq with h | h
    · exact h
    · rw [← h, mul_zero] at ab0; exact absurd ab0 (lt_irrefl _)
  have sa := Real.sqrt_pos.2 a0
  have sb := Real.sqrt_pos.2 b0
  have qa := Real.sq_sqrt a0.le
  have qb := Real.sq_sqrt b0.le
  generalize Real.sqrt (dot a a) = α at *
  generalize Real.sqrt (dot b b) = β at *
  have c1 : -1 ≤ dot a b / (α * β) ∧ dot a b / (α * β) ≤ 1 := by
    rw [← abs_le, abs_div, abs_of_pos (mul_pos sa sb), div_le_one (mul_pos sa sb)]
    apply abs_le_of_sq_le_sq _ (mul_pos sa sb).le
    rw [mul_pow, qa, qb]; linarith
  have hc := Real.cos_arccos c1.1 c1.2
  have hs : Real.sin (Real.arccos (dot a b / (α * β))) = G / (α * β) := by
    rw [Real.sin_arccos, show 1 - (dot a b / (α * β)) ^ 2 = (G / (α * β)) ^ 2 by
      rw [div_pow, div_pow, lag, mul_pow, qa, qb]; field_simp, Real.sqrt_sq (by positivity)]
  have sp : 0 < Real.sin (Real.arccos (dot a b / (α * β))) := by rw [hs]; positivity
  refine ⟨smul (1 / α) a, smul (1 / G) (cross a b), Real.arccos (dot a b / (α * β)), ?_, ?_, ?_, ?_, ?_, ?_, ?_, ?_, ?_⟩
  · have : dot (smul (1 / α) a) (smul (1 / α) a) = dot a a / α ^ 2 := by unfold dot smul; field_simp
    unfold UnitV
    rw [this, qa, div_self a0.ne']
  · have : dot (smul (1 / G) (cross a b)) (smul (1 / G) (cross a b)) = dot (cross a b) (cross a b) / G ^ 2 := by unfold dot smul; field_simp
    unfold UnitV
    rw [this, ← hG, div_self G2.ne']
  · unfold dot smul cross; ring
  · refine lt_of_le_of_ne (Real.arccos_nonneg _) fun h => ?_
    rw [← h, Real.sin_zero] at sp
    exact lt_irrefl _ sp
  · refine lt_of_le_of_ne (Real.arccos_le_pi _) fun h => ?_
    rw [h, Real.sin_pi] at sp
    exact lt_irrefl _ sp
  · obtain ⟨x, y, z⟩ := a
    simp only [smul, Vec.mk.injEq]
    refine ⟨?_, ?_, ?_⟩ <;> field_simp
  · rw [hc, hs]
    have key : ∀ i, comp (smul β (lin (dot a b / (α * β)) (smul (1 / α) a) (G / (α * β)) (cross (smul (1 / G) (cross a b)) (smul (1 / α) a)))) i = comp b i := by
      intro i
      have e : comp (smul β (lin (dot a b / (α * β)) (smul (1 / α) a) (G / (α * β)) (cross (smul (1 / G) (cross a b)) (smul (1 / α) a)))) i =
          (dot a b * comp a i + comp (cross (cross a b) a) i) / α ^ 2 := by
        cases i <;> simp only [comp, smul, lin, cross] <;> field_simp
      rw [e, qa]
      have : dot a b * comp a i + comp (cross (cross a b) a) i = dot a a * comp b i := by
        cases i <;> simp only [comp, cross, dot] <;> ring
      rw [this, mul_div_cancel_left₀ _ a0.ne']
    have k1 := key .X
    have k2 := key .Y
    have k3 := key .Z
    obtain ⟨x, y, z⟩ := b
    simp only [comp] at k1 k2 k3
    rw [Vec.mk.injEq]
    exact ⟨k1.symm, k2.symm, k3.symm⟩
  · simp only [smul, cross, Vec.mk.injEq]
    refine ⟨?_, ?_, ?_⟩ <;> field_simp
  · rw [hc]; field_simp

/-- The computed normal of the plane of two points. -/
theorem pcross_plane {fl : ℝ → ℝ} (h : Rounding fl) {a b g : Vec ℝ} {G : ℝ} (ha : |dot a a - 1| ≤ 16 * eps53) (hb : |dot b b - 1| ≤ 16 * eps53)
    (G1 : 64 * eps53 ≤ G) (hG : G ^ 2 = dot (cross a b) (cross a b)) (eg : cross a b = smul G g) (hg : UnitV g) :
    G ≤ 2 ∧ 1 / 2 ^ 300 ≤ 2 * G ∧ ∀ i, |comp (Vec.pointCross fl Real.sqrt a b) i - 2 * G * comp g i| ≤ 55 / 10 * eps53 * (2 * G) := by
  have e0 := eps53_pos
  have e1 := eps53_le
  have tiny : (1 : ℝ) / 2 ^ 300 ≤ eps53 := by
    unfold eps53; exact one_div_le_one_div_of_le (by positivity) (pow_le_pow_right₀ (by norm_num) (by norm_num))
  have G0 : 0 < G := by clear tiny; linarith
  have ha' := abs_le.1 ha
  have hb' := abs_le.1 hb
  -- the normal
  have gc : ∀ i, comp (cross a b) i = G * comp g i := by intro i; rw [eg]; cases i <;> rfl
  have bd : ∀ v : Vec ℝ, |dot v v - 1| ≤ 16 * eps53 → ∀ i, |comp v i| ≤ 2 := by
    intro v hv i
    have := (abs_le.1 hv).2
    obtain ⟨k1, k2, k3⟩ := comp_le (r := 2) (by norm_num) (by linarith : dot v v ≤ 2 ^ 2)
    cases i <;> assumption
  set S := Real.sqrt (dot (Vec.add _root_.id a b) (Vec.add _root_.id a b)) with hS
  set D := Real.sqrt (dot (Vec.sub _root_.id b a) (Vec.sub _root_.id b a)) with hD
  have S2 : S ^ 2 = dot (Vec.add _root_.id a b) (Vec.add _root_.id a b) := Real.sq_sqrt (dot_self_ge _)
  have D2 : D ^ 2 = dot (Vec.sub _root_.id b a) (Vec.sub _root_.id b a) := Real.sq_sqrt (dot_self_ge _)
  have S0 : 0 ≤ S := Real.sqrt_nonneg _
  have D0 : 0 ≤ D := Real.sqrt_nonneg _
  have lag : G ^ 2 * 4 = (S * D) ^ 2 - (dot b b - dot a a) ^ 2 := by
    rw [mul_pow, S2, D2, hG]; simp only [dot, cross, Vec.add, Vec.sub, _root_.id]; ring
  have SG : 2 * G ≤ S * D := le_of_sq_le_sq (by have := sq_nonneg (dot b b - dot a a); linarith [show (2 * G) ^ 2 = G ^ 2 * 4 by ring]) (mul_nonneg S0 D0)
  have df : |dot b b - dot a a| ≤ G / 2 := by rw [abs_le]; constructor <;> linarith
  have df2 : (dot b b - dot a a) ^ 2 ≤ (G / 2) ^ 2 := by rw [← sq_abs]; exact pow_le_pow_left₀ (abs_nonneg _) df 2
  have SG2 : S * D ≤ 21 / 10 * G := le_of_sq_le_sq (by
    have := sq_nonneg G
    linarith [show (21 / 10 * G) ^ 2 = 441 / 100 * G ^ 2 by ring, show (G / 2) ^ 2 = G ^ 2 / 4 by ring]) (by linarith)
  have Gu : G ≤ 2 := le_of_sq_le_sq (by
    rw [hG, cross_sq]
    have m := mul_le_mul (by linarith : dot a a ≤ 2) (by linarith : dot b b ≤ 2) (dot_self_ge b) (by norm_num)
    have := sq_nonneg (dot a b)
    linarith) (by norm_num)
  have l0 : (1 : ℝ) / 2 ^ 700 ≤ S * D := by
    refine le_trans (one_div_le_one_div_of_le (by positivity) (pow_le_pow_right₀ (by norm_num) (by norm_num))) (tiny.trans ?_)
    clear tiny
    linarith
  have raw := pcross_gen h (bd a ha) (bd b hb) S0 D0 S2 D2 l0
  have pe : Vec.pointCross fl Real.sqrt a b = Vec.cross fl (Vec.add fl a b) (Vec.sub fl b a) := by
    unfold Vec.pointCross
    simp only
    rw [if_neg]
    intro hz
    obtain ⟨z1, z2, z3⟩ := hz
    have small : ∀ i, comp (Vec.cross fl (Vec.add fl a b) (Vec.sub fl b a)) i = 0 → |comp g i| ≤ 1 / 100 := by
      intro i hi
      have r := raw i
      rw [hi, gc i, zero_sub, abs_neg, ← mul_assoc, abs_mul, abs_of_pos (by linarith : 0 < 2 * G)] at r
      have m := mul_le_mul_of_nonneg_right SG2 e0.le
      have m2 := mul_le_mul_of_nonneg_left e1 G0.le
      by_contra hc
      have := mul_lt_mul_of_pos_left (not_le.1 hc) G0
      clear l0 tiny
      linarith
    have s1 : |g.x| ≤ 1 / 100 := small .X z1
    have s2 : |g.y| ≤ 1 / 100 := small .Y z2
    have s3 : |g.z| ≤ 1 / 100 := small .Z z3
    have q : ∀ x : ℝ, |x| ≤ 1 / 100 → x * x ≤ 1 / 10000 := by
      intro x hx
      have := mul_self_le_mul_self (abs_nonneg x) hx
      rw [abs_mul_abs_self] at this
      linarith
    have hg' : g.x * g.x + g.y * g.y + g.z * g.z = 1 := hg
    clear l0 tiny
    linarith [q _ s1, q _ s2, q _ s3]
  refine ⟨Gu, ?_⟩
  have N0 : 1 / 2 ^ 300 ≤ 2 * G := tiny.trans (by clear tiny; linarith)
  refine ⟨N0, ?_⟩
  · intro i
    have := raw i
    rw [gc i, ← mul_assoc, ← pe] at this
    refine this.trans ?_
    have := mul_le_mul_of_nonneg_right SG2 e0.le
    have := mul_nonneg G0.le e0.le
    clear l0 tiny N0
    linarith

/-- **C118.** `interpolate_at_distance` with rounding, for points of unit length (up to `2^-49`) that are not within `2^-47` of being equal or
opposite, and every angle: in an orthonormal basis of the plane of the edge in which `a` has the angle 0 and `b` a positive angle below `π`,
the result is within `2^-45` of the point at the given angle. It is a unit vector up to `2^-49`. -/
theorem c118_interpolateAt {fl sin cos : ℝ → ℝ} (h : Rounding fl) (hsin : NearRel sin Real.sin) (hcos : NearRel cos Real.cos) {a b : Vec ℝ} (ax : ℝ)
    (ha : |dot a a - 1| ≤ 1 / 2 ^ 49) (hb : |dot b b - 1| ≤ 1 / 2 ^ 49) (hab : (1 / 2 ^ 47) ^ 2 ≤ dot (cross a b) (cross a b)) :
    ∃ u e θ, UnitV u ∧ UnitV e ∧ dot u e = 0 ∧ 0 < θ ∧ θ < Real.pi ∧ a = smul (Real.sqrt (dot a a)) u ∧
      b = smul (Real.sqrt (dot b b)) (lin (Real.cos θ) u (Real.sin θ) e) ∧
      (∀ i, |comp (interpolateAtDistance fl Real.sqrt sin cos ax a b) i - comp (lin (Real.cos ax) u (Real.sin ax) e) i| ≤ 1 / 2 ^ 45) ∧
      |dot (interpolateAtDistance fl Real.sqrt sin cos ax a b) (interpolateAtDistance fl Real.sqrt sin cos ax a b) - 1| ≤ 1 / 2 ^ 49 := by
  have e0 := eps53_pos
  have e1 := eps53_le
  have k49 : (1 : ℝ) / 2 ^ 49 = 16 * eps53 := by unfold eps53; norm_num
  have k47 : (1 : ℝ) / 2 ^ 47 = 64 * eps53 := by unfold eps53; norm_num
  have k45 : (1 : ℝ) / 2 ^ 45 = 256 * eps53 := by unfold eps53; norm_num
  have tiny : (1 : ℝ) / 2 ^ 300 ≤ eps53 := by
    unfold eps53; exact one_div_le_one_div_of_le (by positivity) (pow_le_pow_right₀ (by norm_num) (by norm_num))
  rw [k49] at ha hb ⊢
  rw [k47] at hab
  rw [k45]
  have hG := Real.sq_sqrt (dot_self_ge (cross a b))
  have G1 : 64 * eps53 ≤ Real.sqrt (dot (cross a b) (cross a b)) := Real.le_sqrt_of_sq_le hab
  generalize Real.sqrt (dot (cross a b) (cross a b)) = G at *
  have G0 : 0 < G := by linarith
  obtain ⟨u, g, θ, hu, hg, gu, t0, t1, ea, eb, eg, -⟩ := plane_basis G0 hG
  have he : UnitV (cross g u) := by
    have := cross_sq g u
    rw [show dot g g = 1 from hg, show dot u u = 1 from hu, gu] at this
    unfold UnitV
    linarith
  have uo : dot u (cross g u) = 0 := by unfold dot cross; ring
  refine ⟨u, cross g u, θ, hu, he, uo, t0, t1, ea, eb, ?_⟩
  -- the length of `a`
  have ha' := abs_le.1 ha
  have hb' := abs_le.1 hb
  have hr : |Real.sqrt (dot a a) - 1| ≤ 9 * eps53 := by
    have := sqrt_rel (N := dot a a) (r := 1) (k := 16 * eps53) one_pos (by positivity) (by linarith)
      (by rw [one_pow, mul_one]; exact ha)
    linarith
  obtain ⟨Gu, N0, hn⟩ := pcross_plane h ha hb G1 hG eg hg
  have main := interp_gen h hsin hcos (ax := ax) hu hg gu ea hr N0 (by linarith) hn
  have hw : UnitV (lin (Real.cos ax) u (Real.sin ax) (cross g u)) := by
    have : dot (lin (Real.cos ax) u (Real.sin ax) (cross g u)) (lin (Real.cos ax) u (Real.sin ax) (cross g u)) =
      Real.cos ax ^ 2 * dot u u + 2 * Real.cos ax * Real.sin ax * dot u (cross g u) + Real.sin ax ^ 2 * dot (cross g u) (cross g u) := by unfold dot lin; ring
    unfold UnitV
    rw [this, uo, show dot u u = 1 from hu, show dot (cross g u) (cross g u) = 1 from he]
    linarith [Real.sin_sq_add_cos_sq ax]
  obtain ⟨f1, f2⟩ := near_normalize h (by positivity) (by clear tiny N0; linarith) hw main
  clear tiny N0
  refine ⟨fun i => (f1 i).trans (by linarith), ?_⟩
  exact le_trans f2 (by linarith)

/-- **C118.** `interpolate` with rounding: the result is within `(1 + |t|) 2^-43` of the point of the great circle at the fraction `t` of the
angle from `a` to `b`, also for fractions outside 0 and 1; for the fractions 0 and 1 it is `a` and `b`. -/
theorem c118_interpolate {fl sin cos : ℝ → ℝ} {atan2 : ℝ → ℝ → ℝ} (h : Rounding fl) (hn : ∀ x, 0 ≤ x → 0 ≤ fl x) (hsin : NearRel sin Real.sin)
    (hcos : NearRel cos Real.cos) (hat : NearArgUp atan2) {a b : Vec ℝ} {t : ℝ} (ht : |t| ≤ 30)
    (ha : |dot a a - 1| ≤ 1 / 2 ^ 49) (hb : |dot b b - 1| ≤ 1 / 2 ^ 49) (hab : (1 / 2 ^ 47) ^ 2 ≤ dot (cross a b) (cross a b)) :
    ∃ u e θ, UnitV u ∧ UnitV e ∧ dot u e = 0 ∧ 0 < θ ∧ θ < Real.pi ∧ a = smul (Real.sqrt (dot a a)) u ∧
      b = smul (Real.sqrt (dot b b)) (lin (Real.cos θ) u (Real.sin θ) e) ∧
      (∀ i, |comp (interpolate fl Real.sqrt atan2 sin cos t a b) i - comp (lin (Real.cos (t * θ)) u (Real.sin (t * θ)) e) i| ≤ (1 + |t|) / 2 ^ 43) ∧
      |dot (interpolate fl Real.sqrt atan2 sin cos t a b) (interpolate fl Real.sqrt atan2 sin cos t a b) - 1| ≤ 1 / 2 ^ 49 := by
  have e0 := eps53_pos
  have e1 := eps53_le
  have τ1 := tau200_le
  have k49 : (1 : ℝ) / 2 ^ 49 = 16 * eps53 := by unfold eps53; norm_num
  have k45 : (1 : ℝ) / 2 ^ 45 = 256 * eps53 := by unfold eps53; norm_num
  have k43 : (1 + |t|) / 2 ^ 43 = (1 + |t|) * (1024 * eps53) := by unfold eps53; ring
  rw [k43]
  obtain ⟨u, e, θ, hu, he, uo, t0, t1, ea, eb, main, len⟩ :=
    c118_interpolateAt h hsin hcos (fl (t * Vec.angle fl Real.sqrt atan2 a b)) ha hb hab
  refine ⟨u, e, θ, hu, he, uo, t0, t1, ea, eb, ?_⟩
  obtain ⟨u1, u2, u3⟩ := comp_le zero_le_one (by rw [one_pow]; exact le_of_eq hu : dot u u ≤ 1 ^ 2)
  obtain ⟨d1, d2, d3⟩ := comp_le zero_le_one (by rw [one_pow]; exact le_of_eq he : dot e e ≤ 1 ^ 2)
  have hlin : ∀ s, UnitV (lin (Real.cos s) u (Real.sin s) e) := by
    intro s
    have : dot (lin (Real.cos s) u (Real.sin s) e) (lin (Real.cos s) u (Real.sin s) e) =
      Real.cos s ^ 2 * dot u u + 2 * Real.cos s * Real.sin s * dot u e + Real.sin s ^ 2 * dot e e := by unfold dot lin; ring
    unfold UnitV
    rw [this, uo, show dot u u = 1 from hu, show dot e e = 1 from he]
    linarith [Real.sin_sq_add_cos_sq s]
  -- a point of length almost one
  have scaled : ∀ v w : Vec ℝ, |dot v v - 1| ≤ 1 / 2 ^ 49 → UnitV w → v = smul (Real.sqrt (dot v v)) w → ∀ i, |comp v i - comp w i| ≤ 9 * eps53 := by
    intro v w hv hw ev i
    rw [k49] at hv
    have hr : |Real.sqrt (dot v v) - 1| ≤ 9 * eps53 := by
      have := sqrt_rel (N := dot v v) (r := 1) (k := 16 * eps53) one_pos (by linarith) (by linarith)
        (by rw [one_pow, mul_one]; exact hv)
      linarith
    obtain ⟨w1, w2, w3⟩ := comp_le zero_le_one (by rw [one_pow]; exact le_of_eq hw : dot w w ≤ 1 ^ 2)
    have hw' : |comp w i| ≤ 1 := by cases i <;> assumption
    have : comp v i = Real.sqrt (dot v v) * comp w i := by
      conv_lhs => rw [ev]
      cases i <;> rfl
    rw [this, show Real.sqrt (dot v v) * comp w i - comp w i = (Real.sqrt (dot v v) - 1) * comp w i by ring, abs_mul]
    calc _ ≤ |Real.sqrt (dot v v) - 1| * 1 := mul_le_mul_of_nonneg_left hw' (abs_nonneg _)
      _ ≤ _ := by linarith
  have tn := abs_nonneg t
  have te := mul_nonneg tn e0.le
  unfold interpolate
  by_cases h0 : t = 0
  · rw [if_pos h0]
    refine ⟨fun i => ?_, ha⟩
    have : lin (Real.cos (t * θ)) u (Real.sin (t * θ)) e = u := by
      rw [h0, zero_mul, Real.cos_zero, Real.sin_zero]; unfold lin; obtain ⟨x, y, z⟩ := u; simp only [one_mul, zero_mul, add_zero]
    rw [this]
    exact (scaled a u ha hu ea i).trans (by linarith)
  rw [if_neg h0]
  by_cases h1 : t = 1
  · rw [if_pos h1]
    refine ⟨fun i => ?_, hb⟩
    have : t * θ = θ := by rw [h1, one_mul]
    rw [this]
    exact (scaled b _ hb (hlin θ) eb i).trans (by clear h1; linarith)
  rw [if_neg h1]
  refine ⟨fun i => ?_, len⟩
  rw [k45] at main
  -- the angle
  have cosθ : Real.sqrt (dot a a) * Real.sqrt (dot b b) * Real.cos θ = dot a b := by
    have : dot (smul (Real.sqrt (dot a a)) u) (smul (Real.sqrt (dot b b)) (lin (Real.cos θ) u (Real.sin θ) e)) =
        Real.sqrt (dot a a) * Real.sqrt (dot b b) * (Real.cos θ * dot u u + Real.sin θ * dot u e) := by unfold dot smul lin; ring
    rw [← ea, ← eb, uo, show dot u u = 1 from hu, mul_one, mul_zero, add_zero] at this
    exact this.symm
  rw [k49] at ha hb
  have ha' := abs_le.1 ha
  have hb' := abs_le.1 hb
  have ang := c116_point h hn hat (by linarith) (by linarith) (by linarith) (by linarith) t0.le t1.le cosθ
  rw [k45] at ang
  generalize Vec.angle fl Real.sqrt atan2 a b = A at *
  have p2 := Real.pi_lt_d2
  have A1 := abs_le.1 ang
  have A2 : |A| ≤ 32 / 10 := by rw [abs_le]; constructor <;> linarith
  have m1 := mul_le_mul_of_nonneg_left ang tn
  have m2 := mul_le_mul_of_nonneg_left A2 tn
  rw [← abs_mul] at m1 m2
  have f := fl_err h (x := t * A) (by linarith)
  have m3 := mul_le_mul_of_nonneg_right m2 e0.le
  have s := abs_add_le (fl (t * A) - t * A) (t * (A - θ))
  rw [show fl (t * A) - t * A + t * (A - θ) = fl (t * A) - t * θ by ring] at s
  have s' : |fl (t * A) - t * θ| ≤ 260 * (|t| * eps53) + 1 / 10 * eps53 := by linarith
  have c := (Real.abs_cos_sub_cos_le (fl (t * A)) (t * θ)).trans s'
  have sn := (Real.abs_sin_sub_sin_le (fl (t * A)) (t * θ)).trans s'
  have fin : ∀ x y : ℝ, |x| ≤ 1 → |y| ≤ 1 → |Real.cos (fl (t * A)) * x + Real.sin (fl (t * A)) * y - (Real.cos (t * θ) * x + Real.sin (t * θ) * y)| ≤
      520 * (|t| * eps53) + 2 / 10 * eps53 := by
    intro x y hx hy
    have q1 := mul_le_mul c hx (abs_nonneg _) (by linarith)
    have q2 := mul_le_mul sn hy (abs_nonneg _) (by linarith)
    rw [← abs_mul] at q1 q2
    have := abs_add_le ((Real.cos (fl (t * A)) - Real.cos (t * θ)) * x) ((Real.sin (fl (t * A)) - Real.sin (t * θ)) * y)
    rw [show (Real.cos (fl (t * A)) - Real.cos (t * θ)) * x + (Real.sin (fl (t * A)) - Real.sin (t * θ)) * y =
      Real.cos (fl (t * A)) * x + Real.sin (fl (t * A)) * y - (Real.cos (t * θ) * x + Real.sin (t * θ) * y) by ring] at this
    linarith
  have fi : |comp (lin (Real.cos (fl (t * A))) u (Real.sin (fl (t * A))) e) i - comp (lin (Real.cos (t * θ)) u (Real.sin (t * θ)) e) i| ≤
      520 * (|t| * eps53) + 2 / 10 * eps53 := by
    cases i
    · exact fin _ _ u1 d1
    · exact fin _ _ u2 d2
    · exact fin _ _ u3 d3
  have := abs_add_le (comp (interpolateAtDistance fl Real.sqrt sin cos (fl (t * A)) a b) i - comp (lin (Real.cos (fl (t * A))) u (Real.sin (fl (t * A))) e) i)
    (comp (lin (Real.cos (fl (t * A))) u (Real.sin (fl (t * A))) e) i - comp (lin (Real.cos (t * θ)) u (Real.sin (t * θ)) e) i)
  rw [sub_add_sub_cancel] at this
  have := main i
  linarith

/-- **C118.** `interpolate` between equal points: the tangent that the code divides by is not zero, and the result is the point up to `2^-47`. -/
theorem c118_same {fl sin cos : ℝ → ℝ} {atan2 : ℝ → ℝ → ℝ} (h : Rounding fl) (hz : fl 0 = 0) (hn : ∀ x, 0 ≤ x → 0 ≤ fl x) (hsin : NearRel sin Real.sin)
    (hcos : NearRel cos Real.cos) (hat : ∀ x, 0 ≤ x → atan2 0 x = 0) {a : Vec ℝ} (t : ℝ) (ha : |dot a a - 1| ≤ 1 / 2 ^ 49) :
    Vec.norm fl Real.sqrt (Vec.cross fl (Vec.pointCross fl Real.sqrt a a) a) ≠ 0 ∧
    ∀ i, |comp (interpolate fl Real.sqrt atan2 sin cos t a a) i - comp a i| ≤ 1 / 2 ^ 47 := by
  have e0 := eps53_pos
  have e1 := eps53_le
  have τ1 := tau200_le
  have k49 : (1 : ℝ) / 2 ^ 49 = 16 * eps53 := by unfold eps53; norm_num
  have k47 : (1 : ℝ) / 2 ^ 47 = 64 * eps53 := by unfold eps53; norm_num
  rw [k49] at ha
  rw [k47]
  have pc : Vec.pointCross fl Real.sqrt a a = Vec.ortho fl Real.sqrt a := by
    have d : Vec.sub fl a a = ⟨0, 0, 0⟩ := by unfold Vec.sub; simp only [sub_self, hz]
    unfold Vec.pointCross
    rw [d]
    unfold Vec.cross
    simp only [mul_zero, hz, sub_self, and_self, if_true]
  obtain ⟨o1, -⟩ := frame_gen h ha
  have o2 : |dot (Vec.cross fl (Vec.ortho fl Real.sqrt a) a) (Vec.cross fl (Vec.ortho fl Real.sqrt a) a) - 1| ≤ 64 * eps53 := o1
  have ha' := abs_le.1 ha
  have nz : Vec.norm fl Real.sqrt (Vec.cross fl (Vec.ortho fl Real.sqrt a) a) ≠ 0 := by
    generalize Vec.cross fl (Vec.ortho fl Real.sqrt a) a = T at *
    have o := abs_le.1 o2
    have s1 : 1 / 2 ≤ Real.sqrt (dot T T) := Real.le_sqrt_of_sq_le (by norm_num; linarith)
    have s2 : Real.sqrt (dot T T) ≤ 2 := Real.sqrt_le_iff.2 ⟨by norm_num, by norm_num; linarith⟩
    have B : (1 : ℝ) / 2 ^ 400 ≤ 1 / 2 := by
      have := one_div_le_one_div_of_le (by norm_num) (pow_le_pow_right₀ (by norm_num : (1 : ℝ) ≤ 2) (by norm_num : 1 ≤ 400))
      rwa [pow_one] at this
    have C : (2 : ℝ) ≤ 2 ^ 400 := by
      have := pow_le_pow_right₀ (by norm_num : (1 : ℝ) ≤ 2) (by norm_num : 1 ≤ 400)
      rwa [pow_one] at this
    have n := norm_gen h (B.trans s1) (s2.trans C) (Real.sq_sqrt (dot_self_ge T))
    intro hz
    clear B C
    rw [hz, zero_sub, abs_neg, abs_of_nonneg (Real.sqrt_nonneg _)] at n
    have := mul_le_mul_of_nonneg_right e1 (Real.sqrt_nonneg (dot T T))
    linarith
  rw [pc]
  refine ⟨nz, ?_⟩
  intro i
  unfold interpolate
  split_ifs with h0 h1
  · rw [sub_self, abs_zero]; positivity
  · rw [sub_self, abs_zero]; positivity
  rw [c116_self hz hn Real.sqrt_zero hat, mul_zero, hz]
  have s0 : sin 0 = 0 := by
    have := hsin 0
    rw [Real.sin_zero, abs_zero, zero_div, sub_zero] at this
    exact abs_eq_zero.1 (le_antisymm this (abs_nonneg _))
  have hr : |Real.sqrt (dot a a) - 1| ≤ 9 * eps53 := by
    have := sqrt_rel (N := dot a a) (r := 1) (k := 16 * eps53) one_pos (by positivity) (by linarith)
      (by rw [one_pow, mul_one]; exact ha)
    linarith
  have hr' := abs_le.1 hr
  have gs := Real.sq_sqrt (dot_self_ge a)
  have cl := lib_err h hcos (x := 0) (Real.abs_cos_le_one 0)
  rw [Real.cos_zero, _root_.abs_one, mul_one] at cl
  unfold interpolateAtDistance
  simp only
  rw [s0, hz, zero_div, hz]
  generalize Real.sqrt (dot a a) = r at *
  have rp : 0 < r := by linarith
  have hu : UnitV (smul (1 / r) a) := by
    have : dot (smul (1 / r) a) (smul (1 / r) a) = dot a a / r ^ 2 := by unfold dot smul; field_simp
    unfold UnitV
    rw [this, gs, div_self (by linarith)]
  obtain ⟨u1, u2, u3⟩ := comp_le zero_le_one (by rw [one_pow]; exact le_of_eq hu : dot (smul (1 / r) a) (smul (1 / r) a) ≤ 1 ^ 2)
  generalize Vec.cross fl (Vec.pointCross fl Real.sqrt a a) a = T
  have au : ∀ j, |comp (smul (1 / r) a) j| ≤ 1 ∧ |comp a j - comp (smul (1 / r) a) j| ≤ 9 * eps53 := by
    intro j
    have hj : |comp (smul (1 / r) a) j| ≤ 1 := by cases j <;> assumption
    refine ⟨hj, ?_⟩
    have : comp a j - comp (smul (1 / r) a) j = (r - 1) * comp (smul (1 / r) a) j := by
      cases j <;> simp only [comp, smul] <;> field_simp
    rw [this, abs_mul]
    calc _ ≤ |r - 1| * 1 := mul_le_mul_of_nonneg_left hj (abs_nonneg _)
      _ ≤ _ := by linarith
  have c1 : |fl (cos 0)| ≤ 1001 / 1000 := by
    have := abs_sub_abs_le_abs_sub (fl (cos 0)) 1
    rw [_root_.abs_one] at this
    linarith
  have cmp1 : ∀ x u : ℝ, |u| ≤ 1 → |x - u| ≤ 9 * eps53 → ∀ y, |fl (fl (x * fl (cos 0)) + fl (y * 0)) - u| ≤ 16 * eps53 := by
    intro x u h1 h2 y
    rw [mul_zero, hz, add_zero]
    have x1 := abs_sub_abs_le_abs_sub x u
    have x2 : |x| ≤ 1001 / 1000 := by linarith
    have p := mul_le_mul x2 cl (abs_nonneg _) (by norm_num)
    rw [← abs_mul] at p
    have q := abs_add_le (x * (fl (cos 0) - 1)) (x - u)
    rw [show x * (fl (cos 0) - 1) + (x - u) = x * fl (cos 0) - u by ring] at q
    have q2 := abs_sub_abs_le_abs_sub (x * fl (cos 0)) u
    have f := fl_err h (x := x * fl (cos 0)) (by linarith)
    have m := mul_le_mul_of_nonneg_right (by linarith : |x * fl (cos 0)| ≤ 1001 / 1000) e0.le
    have q3 := abs_sub_abs_le_abs_sub (fl (x * fl (cos 0))) (x * fl (cos 0))
    have f2 := fl_err h (x := fl (x * fl (cos 0))) (by linarith)
    have m2 := mul_le_mul_of_nonneg_right (by linarith : |fl (x * fl (cos 0))| ≤ 1002 / 1000) e0.le
    have s := abs_add_three (fl (fl (x * fl (cos 0))) - fl (x * fl (cos 0))) (fl (x * fl (cos 0)) - x * fl (cos 0)) (x * fl (cos 0) - u)
    rw [sub_add_sub_cancel, sub_add_sub_cancel] at s
    linarith
  obtain ⟨f1, -⟩ := near_normalize h (k := 16 * eps53) (v := Vec.add fl (Vec.scale fl a (fl (cos 0))) (Vec.scale fl T 0)) (by positivity) (by linarith) hu (by
    intro j
    have := cmp1 _ _ (au j).1 (au j).2
    cases j
    · exact this T.x
    · exact this T.y
    · exact this T.z)
  have g := f1 i
  have g2 := (au i).2
  rw [abs_sub_comm] at g2
  have := abs_add_le (comp (Vec.normalize fl Real.sqrt (Vec.add fl (Vec.scale fl a (fl (cos 0))) (Vec.scale fl T 0))) i - comp (smul (1 / r) a) i)
    (comp (smul (1 / r) a) i - comp a i)
  rw [sub_add_sub_cancel] at this
  linarith

/-! ## Examples -/

/-- The middle of a quarter circle. -/
example : ∃ u e θ, UnitV u ∧ UnitV e ∧ dot u e = 0 ∧ 0 < θ ∧ θ < Real.pi ∧ (⟨1, 0, 0⟩ : Vec ℝ) = smul (Real.sqrt (dot (⟨1, 0, 0⟩ : Vec ℝ) ⟨1, 0, 0⟩)) u ∧
    (⟨0, 1, 0⟩ : Vec ℝ) = smul (Real.sqrt (dot (⟨0, 1, 0⟩ : Vec ℝ) ⟨0, 1, 0⟩)) (lin (Real.cos θ) u (Real.sin θ) e) ∧
    (∀ i, |comp (interpolate rne Real.sqrt (fun y x => Complex.arg ⟨x, y⟩) Real.sin Real.cos (1 / 2) ⟨1, 0, 0⟩ ⟨0, 1, 0⟩) i -
      comp (lin (Real.cos (1 / 2 * θ)) u (Real.sin (1 / 2 * θ)) e) i| ≤ (1 + |(1 / 2 : ℝ)|) / 2 ^ 43) ∧
    |dot (interpolate rne Real.sqrt (fun y x => Complex.arg ⟨x, y⟩) Real.sin Real.cos (1 / 2) ⟨1, 0, 0⟩ ⟨0, 1, 0⟩)
      (interpolate rne Real.sqrt (fun y x => Complex.arg ⟨x, y⟩) Real.sin Real.cos (1 / 2) ⟨1, 0, 0⟩ ⟨0, 1, 0⟩) - 1| ≤ 1 / 2 ^ 49 :=
  c118_interpolate rounding_rne (fun _ h => rne_nonneg h) (nearRel_self _) (nearRel_self _) nearArgUp_arg (by norm_num [abs_le]) (by norm_num [dot])
    (by norm_num [dot]) (by norm_num [dot, cross])

example : ∀ i, |comp (interpolate rne Real.sqrt (fun y x => Complex.arg ⟨x, y⟩) Real.sin Real.cos (1 / 3) ⟨0, 0, 1⟩ ⟨0, 0, 1⟩) i -
    comp (⟨0, 0, 1⟩ : Vec ℝ) i| ≤ 1 / 2 ^ 47 :=
  (c118_same rounding_rne rne_zero (fun _ h => rne_nonneg h) (nearRel_self _) (nearRel_self _)
    (fun _ h => Complex.arg_ofReal_of_nonneg h) (1 / 3) (by norm_num [dot])).2

end Verif
