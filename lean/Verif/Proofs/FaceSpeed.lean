import Verif.Proofs.PathLength

/-!
# Speeds on a face of the cube

How fast the direction moves when the grid coordinates (from -1 to 1 on a face) change.
-/

namespace Verif
open Spec Filter

theorem gUV_deriv (s : ℝ) : HasDerivAt gUV (2 * (1 + |s|) / 3) s := by
  have pos : ∀ s, HasDerivAt (fun s : ℝ => s * (s + 2) / 3) (2 * (1 + s) / 3) s := by
    intro s
    exact (((hasDerivAt_id s).mul ((hasDerivAt_id s).add_const 2)).div_const 3).congr_deriv (by simp; ring)
  have neg : ∀ s, HasDerivAt (fun s : ℝ => s * (-s + 2) / 3) (2 * (1 + -s) / 3) s := by
    intro s
    exact (((hasDerivAt_id s).mul ((hasDerivAt_id s).neg.add_const 2)).div_const 3).congr_deriv (by simp; ring)
  rcases lt_trichotomy s 0 with h | h | h
  · rw [abs_of_neg h]
    refine (neg s).congr_of_eventuallyEq ?_
    filter_upwards [Iio_mem_nhds h] with x hx
    unfold gUV
    rw [abs_of_neg hx]
  · rw [h, abs_zero]
    have h1 : HasDerivWithinAt gUV (2 * (1 + 0) / 3) (Set.Iic 0) 0 := by
      have := (neg 0).hasDerivWithinAt (s := Set.Iic 0)
      rw [neg_zero] at this
      refine this.congr_of_mem (fun x hx => ?_) (Set.mem_Iic.2 le_rfl)
      unfold gUV
      rw [abs_of_nonpos hx]
    have h2 : HasDerivWithinAt gUV (2 * (1 + 0) / 3) (Set.Ici 0) 0 := by
      refine (pos 0).hasDerivWithinAt.congr_of_mem (fun x hx => ?_) (Set.mem_Ici.2 le_rfl)
      unfold gUV
      rw [abs_of_nonneg hx]
    have := h1.union h2
    rw [Set.Iic_union_Ici, hasDerivWithinAt_univ] at this
    exact this
  · rw [abs_of_pos h]
    refine (pos s).congr_of_eventuallyEq ?_
    filter_upwards [Ioi_mem_nhds h] with x hx
    unfold gUV
    rw [abs_of_pos hx]

theorem gUV_abs (s : ℝ) : |gUV s| = |s| * (|s| + 2) / 3 := by
  unfold gUV
  rw [abs_div, abs_mul, abs_of_pos (show (0 : ℝ) < |s| + 2 by positivity), abs_of_pos (show (0 : ℝ) < 3 by norm_num)]

theorem gUV_le {s : ℝ} (h : |s| ≤ 1) : |gUV s| ≤ |s| := by
  rw [gUV_abs]
  have := abs_nonneg s
  nlinarith

theorem gUV_sq_le {s : ℝ} (h : |s| ≤ 1) : gUV s ^ 2 ≤ |s| := by
  rw [← sq_abs]
  have := abs_nonneg (gUV s)
  have := gUV_le h
  nlinarith

/-- The largest speed along a grid line, in the plane through the centre of the face: the `f64` constant `MAX_ANGLE_SPANMETRIC`. -/
theorem span_speed {x : ℝ} : 1 + 3 * x ≤ 9 / 16 * (3839087150473305 / 2 ^ 51) ^ 2 * (1 + x ^ 2) ^ 2 := by
  obtain ⟨K, hK⟩ : ∃ K : ℝ, K = 9 / 16 * (3839087150473305 / 2 ^ 51) ^ 2 := ⟨_, rfl⟩
  rw [← hK]
  obtain ⟨d, hd⟩ : ∃ d : ℝ, d = x - 49552282817 / 125000000000 := ⟨_, rfl⟩
  have hx : x = 49552282817 / 125000000000 + d := by rw [hd]; ring
  have e : K * (1 + x ^ 2) ^ 2 - (1 + 3 * x) = (K * (1 + (49552282817 / 125000000000) ^ 2) ^ 2 - (1 + 3 * (49552282817 / 125000000000))) +
      (4 * K * (49552282817 / 125000000000) * (1 + (49552282817 / 125000000000) ^ 2) - 3) * d +
      K * d ^ 2 * (2 + 2 * (49552282817 / 125000000000) ^ 2 + (d + 2 * (49552282817 / 125000000000)) ^ 2) := by
    rw [hx]; ring
  have g0 : 1 / 10 ^ 17 ≤ K * (1 + (49552282817 / 125000000000) ^ 2) ^ 2 - (1 + 3 * (49552282817 / 125000000000)) := by
    rw [hK]; norm_num
  have g1 : 4 * K * (49552282817 / 125000000000) * (1 + (49552282817 / 125000000000) ^ 2) - 3 ≤ 1 / 10 ^ 11 ∧
      -(1 / 10 ^ 11) ≤ 4 * K * (49552282817 / 125000000000) * (1 + (49552282817 / 125000000000) ^ 2) - 3 := by
    rw [hK]; constructor <;> norm_num
  have K1 : 1 ≤ K := by rw [hK]; norm_num
  obtain ⟨A, hA⟩ : ∃ A, A = K * (1 + (49552282817 / 125000000000) ^ 2) ^ 2 - (1 + 3 * (49552282817 / 125000000000)) := ⟨_, rfl⟩
  obtain ⟨B, hB⟩ : ∃ B, B = 4 * K * (49552282817 / 125000000000) * (1 + (49552282817 / 125000000000) ^ 2) - 3 := ⟨_, rfl⟩
  rw [← hA, ← hB] at e
  rw [← hA] at g0
  rw [← hB] at g1
  have q : d ^ 2 ≤ K * d ^ 2 * (2 + 2 * (49552282817 / 125000000000) ^ 2 + (d + 2 * (49552282817 / 125000000000)) ^ 2) := by
    have h1 : 1 ≤ 2 + 2 * (49552282817 / 125000000000) ^ 2 + (d + 2 * (49552282817 / 125000000000)) ^ 2 := by
      have := sq_nonneg (d + 2 * (49552282817 / 125000000000))
      norm_num at this ⊢
      linarith
    have h2 : d ^ 2 ≤ K * d ^ 2 := by nlinarith [sq_nonneg d]
    nlinarith [mul_nonneg (show 0 ≤ K by linarith) (sq_nonneg d)]
  have m : 0 ≤ A + B * d + d ^ 2 := by
    have : B ^ 2 ≤ 4 * A := by nlinarith
    nlinarith [sq_nonneg (d + B / 2)]
  linarith

/-- The speed along a grid line is largest in the middle of the face. -/
theorem line_factor {u v : ℝ} (hu : |u| ≤ 1) : (1 + v ^ 2) * (1 + u ^ 2) ^ 2 ≤ (1 + u ^ 2 + v ^ 2) ^ 2 := by
  have h1 : u ^ 2 ≤ 1 := by rw [← sq_abs]; have := abs_nonneg u; nlinarith
  have h2 : u ^ 2 * u ^ 2 ≤ 1 := by nlinarith [sq_nonneg u]
  nlinarith [mul_nonneg (sq_nonneg v) (show 0 ≤ 1 + v ^ 2 - u ^ 2 * u ^ 2 by nlinarith [sq_nonneg v])]

theorem line_speed {s v a : ℝ} (hs : |s| ≤ 1) :
    (1 + v ^ 2) * (2 * (1 + |s|) / 3 * a) ^ 2 ≤ (3839087150473305 / 2 ^ 51 / 2 * a) ^ 2 * (1 + gUV s ^ 2 + v ^ 2) ^ 2 := by
  have h1 := line_factor (u := gUV s) (v := v) ((gUV_le hs).trans hs)
  have h2 := span_speed (x := |gUV s|)
  rw [sq_abs] at h2
  have h3 : 1 + 3 * |gUV s| = (1 + |s|) ^ 2 := by rw [gUV_abs]; ring
  rw [h3] at h2
  obtain ⟨m, hm⟩ : ∃ m : ℝ, m = 3839087150473305 / 2 ^ 51 := ⟨_, rfl⟩
  rw [← hm] at h2 ⊢
  have h4 := mul_le_mul_of_nonneg_left h2 (show 0 ≤ 4 / 9 * a ^ 2 * (1 + v ^ 2) by positivity)
  have h5 := mul_le_mul_of_nonneg_left h1 (show 0 ≤ m ^ 2 / 4 * a ^ 2 by positivity)
  calc _ = 4 / 9 * a ^ 2 * (1 + v ^ 2) * (1 + |s|) ^ 2 := by ring
    _ ≤ 4 / 9 * a ^ 2 * (1 + v ^ 2) * (9 / 16 * m ^ 2 * (1 + gUV s ^ 2) ^ 2) := h4
    _ = m ^ 2 / 4 * a ^ 2 * ((1 + v ^ 2) * (1 + gUV s ^ 2) ^ 2) := by ring
    _ ≤ _ := h5
    _ = _ := by ring

/-- The largest speed in any direction: the `f64` constant `MAX_DIAGMETRIC`. -/
theorem diag_speed {s t a b m : ℝ} (ha : |a| ≤ m) (hb : |b| ≤ m) :
    (1 + gUV t ^ 2) * (2 * (1 + |s|) / 3 * a) ^ 2 - 2 * (gUV s * gUV t * ((2 * (1 + |s|) / 3 * a) * (2 * (1 + |t|) / 3 * b))) +
      (1 + gUV s ^ 2) * (2 * (1 + |t|) / 3 * b) ^ 2 ≤ (5491361961389203 / 2 ^ 51 / 2 * m) ^ 2 * (1 + gUV s ^ 2 + gUV t ^ 2) ^ 2 := by
  obtain ⟨x, hx⟩ : ∃ x, x = |gUV s| := ⟨_, rfl⟩
  obtain ⟨y, hy⟩ : ∃ y, y = |gUV t| := ⟨_, rfl⟩
  obtain ⟨A, hA⟩ : ∃ A, A = 1 + |s| := ⟨_, rfl⟩
  obtain ⟨B, hB⟩ : ∃ B, B = 1 + |t| := ⟨_, rfl⟩
  have eA : A ^ 2 = 1 + 3 * x := by rw [hx, gUV_abs, hA]; ring
  have eB : B ^ 2 = 1 + 3 * y := by rw [hy, gUV_abs, hB]; ring
  have A0 : 0 ≤ A := by rw [hA]; positivity
  have B0 : 0 ≤ B := by rw [hB]; positivity
  have x0 : 0 ≤ x := by rw [hx]; exact abs_nonneg _
  have y0 : 0 ≤ y := by rw [hy]; exact abs_nonneg _
  have m0 : 0 ≤ m := (abs_nonneg a).trans ha
  rw [← hA, ← hB, ← sq_abs (gUV s), ← sq_abs (gUV t), ← hx, ← hy]
  have cr : -(gUV s * gUV t * ((2 * A / 3 * a) * (2 * B / 3 * b))) ≤ x * y * (4 / 9 * (A * B) * m ^ 2) := by
    have h1 := neg_le_abs (gUV s * gUV t * ((2 * A / 3 * a) * (2 * B / 3 * b)))
    have h2 : |gUV s * gUV t * ((2 * A / 3 * a) * (2 * B / 3 * b))| = x * y * (4 / 9 * (A * B) * (|a| * |b|)) := by
      rw [abs_mul, abs_mul, ← hx, ← hy, show 2 * A / 3 * a * (2 * B / 3 * b) = 4 / 9 * (A * B) * (a * b) by ring, abs_mul, abs_mul a b,
        abs_of_nonneg (show 0 ≤ 4 / 9 * (A * B) by positivity)]
    have h3 : |a| * |b| ≤ m ^ 2 := by rw [pow_two]; exact mul_le_mul ha hb (abs_nonneg _) m0
    rw [h2] at h1
    exact h1.trans (mul_le_mul_of_nonneg_left (mul_le_mul_of_nonneg_left h3 (by positivity)) (by positivity))
  have sa : a ^ 2 ≤ m ^ 2 := by rw [← sq_abs]; exact pow_le_pow_left₀ (abs_nonneg _) ha 2
  have sb : b ^ 2 ≤ m ^ 2 := by rw [← sq_abs]; exact pow_le_pow_left₀ (abs_nonneg _) hb 2
  have t1 : (1 + y ^ 2) * (2 * A / 3 * a) ^ 2 ≤ (1 + y ^ 2) * (4 / 9 * A ^ 2) * m ^ 2 := by
    rw [show (1 + y ^ 2) * (2 * A / 3 * a) ^ 2 = (1 + y ^ 2) * (4 / 9 * A ^ 2) * a ^ 2 by ring]
    exact mul_le_mul_of_nonneg_left sa (by positivity)
  have t2 : (1 + x ^ 2) * (2 * B / 3 * b) ^ 2 ≤ (1 + x ^ 2) * (4 / 9 * B ^ 2) * m ^ 2 := by
    rw [show (1 + x ^ 2) * (2 * B / 3 * b) ^ 2 = (1 + x ^ 2) * (4 / 9 * B ^ 2) * b ^ 2 by ring]
    exact mul_le_mul_of_nonneg_left sb (by positivity)
  have ab : 2 * (A * B) ≤ A ^ 2 + B ^ 2 := by nlinarith [sq_nonneg (A - B)]
  have t3 : 2 * (x * y * (4 / 9 * (A * B) * m ^ 2)) ≤ x * y * (4 / 9 * (A ^ 2 + B ^ 2)) * m ^ 2 := by
    have := mul_le_mul_of_nonneg_left ab (show 0 ≤ x * y * (4 / 9) * m ^ 2 by positivity)
    linarith
  have fin : (1 + y ^ 2) * A ^ 2 + (1 + x ^ 2) * B ^ 2 + x * y * (A ^ 2 + B ^ 2) ≤ 9 / 16 * (5491361961389203 / 2 ^ 51) ^ 2 * (1 + x ^ 2 + y ^ 2) ^ 2 := by
    rw [eA, eB]
    obtain ⟨K, hK⟩ : ∃ K : ℝ, K = 9 / 16 * (5491361961389203 / 2 ^ 51) ^ 2 := ⟨_, rfl⟩
    rw [← hK]
    have hK2 : 9 ≤ 2 * K * (K - 2) := by rw [hK]; norm_num
    have K0 : 3 < K := by rw [hK]; norm_num
    obtain ⟨p, hp⟩ : ∃ p, p = x + y := ⟨_, rfl⟩
    have p0 : 0 ≤ p := by rw [hp]; positivity
    have lin : 2 + 3 * p ≤ K * (1 + p ^ 2 / 2) := by
      have : 0 ≤ 2 * K * (K * (1 + p ^ 2 / 2) - (2 + 3 * p)) := by nlinarith [sq_nonneg (K * p - 3)]
      by_contra hc
      push Not at hc
      nlinarith
    have r : (1 + p ^ 2 / 2) ≤ (1 + x ^ 2 + y ^ 2) * 1 + x * y := by rw [hp]; nlinarith [sq_nonneg (x - y)]
    obtain ⟨q, hq⟩ : ∃ q, q = (x - y) ^ 2 := ⟨_, rfl⟩
    have q0 : 0 ≤ q := by rw [hq]; positivity
    have e1 : (1 + y ^ 2) * (1 + 3 * x) + (1 + x ^ 2) * (1 + 3 * y) + x * y * (1 + 3 * x + (1 + 3 * y)) =
        (2 + 3 * p) * (1 + p ^ 2 / 2) - 3 / 2 * p * q := by rw [hp, hq]; ring
    have e2 : 1 + x ^ 2 + y ^ 2 = 1 + p ^ 2 / 2 + q / 2 := by rw [hp, hq]; ring
    rw [e1, e2]
    have w0 : 0 ≤ 1 + p ^ 2 / 2 := by positivity
    have f1 := mul_le_mul_of_nonneg_right lin w0
    have f2 : K * (1 + p ^ 2 / 2) * (1 + p ^ 2 / 2) ≤ K * (1 + p ^ 2 / 2 + q / 2) ^ 2 := by
      rw [mul_assoc, ← pow_two]
      exact mul_le_mul_of_nonneg_left (pow_le_pow_left₀ w0 (by linarith) 2) (by linarith)
    have f3 : 0 ≤ 3 / 2 * p * q := by positivity
    linarith
  obtain ⟨D, hD⟩ : ∃ D : ℝ, D = 5491361961389203 / 2 ^ 51 := ⟨_, rfl⟩
  rw [← hD] at fin ⊢
  have := mul_le_mul_of_nonneg_left fin (show 0 ≤ 4 / 9 * m ^ 2 by positivity)
  linarith

end Verif
