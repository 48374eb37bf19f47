import Verif.Properties.LatLngRound
import Verif.Model.EdgeUtil

/-!
# Rounding errors of distances
-/

namespace Verif
open Spec S2

namespace Spec

/-- A library `atan2` with an error of at most `2^-51` in the upper half plane (where the first argument is `+0` or positive). -/
def NearArgUp (atan2 : ℝ → ℝ → ℝ) : Prop :=
  ∀ y x, 0 ≤ y → ∃ t, 0 ≤ t ∧ t ≤ Real.pi ∧ |atan2 y x - t| ≤ 1 / 2 ^ 51 ∧ Real.sqrt (x * x + y * y) * Real.cos t = x ∧
    Real.sqrt (x * x + y * y) * Real.sin t = y

end Spec

theorem nearArgUp_arg : NearArgUp (fun y x => Complex.arg ⟨x, y⟩) := by
  intro y x hy
  refine ⟨Complex.arg ⟨x, y⟩, Complex.arg_nonneg_iff.2 hy, Complex.arg_le_pi _, by rw [sub_self, abs_zero]; positivity, ?_, ?_⟩
  · have := Complex.norm_mul_cos_arg ⟨x, y⟩
    rwa [Complex.norm_def, Complex.normSq_mk] at this
  · have := Complex.norm_mul_sin_arg ⟨x, y⟩
    rwa [Complex.norm_def, Complex.normSq_mk] at this

/-- The error of a square root, from the error of the radicand. -/
theorem sqrt_tol {N r A B : ℝ} (r0 : 0 ≤ r) (A0 : 0 ≤ A) (B0 : 0 ≤ B) (hN : |N - r ^ 2| ≤ A * r + B ^ 2) : |Real.sqrt N - r| ≤ A + B := by
  set q := Real.sqrt N with hq
  have q0 : 0 ≤ q := Real.sqrt_nonneg _
  have hd : |q ^ 2 - r ^ 2| ≤ A * r + B ^ 2 := by
    rcases le_or_gt 0 N with h | h
    · rw [hq, Real.sq_sqrt h]; exact hN
    · rw [hq, Real.sqrt_eq_zero_of_nonpos h.le]
      refine le_trans ?_ hN
      have r2 := sq_nonneg r
      rw [abs_of_nonpos (by linarith : N - r ^ 2 ≤ 0), zero_pow two_ne_zero, zero_sub, abs_neg, abs_of_nonneg r2]
      linarith
  rw [show q ^ 2 - r ^ 2 = (q - r) * (q + r) by ring, abs_mul, abs_of_nonneg (by linarith : 0 ≤ q + r)] at hd
  by_contra hc
  rw [not_le] at hc
  have h1 : |q - r| ≤ q + r := by rw [abs_le]; constructor <;> linarith
  have h2 : 0 < q + r := by linarith
  have h3 := mul_lt_mul_of_pos_right hc h2
  have h4 : A * r ≤ A * (q + r) := mul_le_mul_of_nonneg_left (by linarith) A0
  have h5 : B * B ≤ B * (q + r) := mul_le_mul_of_nonneg_left (by linarith) B0
  rw [pow_two] at hd
  linarith

/-! ## Vectors -/

/-- A difference of two products. -/
theorem cross_err {fl : ℝ → ℝ} (h : Rounding fl) {P Q : ℝ} (hb : |P| + |Q| ≤ 2) : |fl (fl P - fl Q) - (P - Q)| ≤ 5 * eps53 := by
  have e0 := eps53_pos
  have e1 := eps53_le
  have t1 := tau200_le
  have P0 := abs_nonneg P
  have Q0 := abs_nonneg Q
  have a1 := fl_err h (x := P) (by linarith)
  have a2 := fl_err h (x := Q) (by linarith)
  have a3 := abs_sub (fl P - P) (fl Q - Q)
  rw [show fl P - P - (fl Q - Q) = fl P - fl Q - (P - Q) by ring] at a3
  have m := mul_le_mul_of_nonneg_right hb e0.le
  have a4 := abs_sub_abs_le_abs_sub (fl P - fl Q) (P - Q)
  have a5 := abs_sub P Q
  have a6 := fl_err h (x := fl P - fl Q) (by linarith)
  have a7 := abs_add_le (fl (fl P - fl Q) - (fl P - fl Q)) (fl P - fl Q - (P - Q))
  rw [sub_add_sub_cancel] at a7
  have m2 := mul_le_mul_of_nonneg_right (by linarith : |fl P - fl Q| ≤ 21 / 10) e0.le
  linarith

/-- A sum of three products, with a bound `M` for the sum of their absolute values. -/
theorem dot_err {fl : ℝ → ℝ} (h : Rounding fl) {P Q R M : ℝ} (hb : |P| + |Q| + |R| ≤ M) (hM : M ≤ 10) :
    |fl (fl (fl P + fl Q) + fl R) - (P + Q + R)| ≤ 7 / 2 * eps53 * M + 10 * tau200 := by
  have e0 := eps53_pos
  have e1 := eps53_le
  have t0 := tau200_pos
  have t1 := tau200_le
  have P0 := abs_nonneg P
  have Q0 := abs_nonneg Q
  have R0 := abs_nonneg R
  have M0 : 0 ≤ M := by linarith
  have et : eps53 * tau200 ≤ tau200 * (1 / 10) := by rw [mul_comm]; exact mul_le_mul_of_nonneg_left (by linarith) t0.le
  have a1 := fl_err h (x := P) (by linarith)
  have a2 := fl_err h (x := Q) (by linarith)
  have a3 := fl_err h (x := R) (by linarith)
  have m := mul_le_mul_of_nonneg_right hb e0.le
  have me := mul_le_mul_of_nonneg_right e1 M0
  have b1 := abs_add_le (fl P - P) (fl Q - Q)
  rw [show fl P - P + (fl Q - Q) = fl P + fl Q - (P + Q) by ring] at b1
  have b2 := abs_sub_abs_le_abs_sub (fl P + fl Q) (P + Q)
  have b3 := abs_add_le P Q
  have mR := mul_nonneg R0 e0.le
  have mPQ := mul_nonneg (add_nonneg P0 Q0) e0.le
  have b5 : |fl P + fl Q| ≤ 101 / 100 * M + 2 * tau200 := by linarith
  have b4 := fl_err h (x := fl P + fl Q) (by linarith)
  have b6 := mul_le_mul_of_nonneg_right b5 e0.le
  have c1 := abs_add_le (fl (fl P + fl Q) - (fl P + fl Q)) (fl P + fl Q - (P + Q))
  rw [sub_add_sub_cancel] at c1
  have c2 := abs_add_le (fl (fl P + fl Q) - (P + Q)) (fl R - R)
  rw [show fl (fl P + fl Q) - (P + Q) + (fl R - R) = fl (fl P + fl Q) + fl R - (P + Q + R) by ring] at c2
  have c3 : |fl (fl P + fl Q) + fl R - (P + Q + R)| ≤ 5 / 2 * eps53 * M - 1 / 10 * (eps53 * M) + 8 * tau200 := by linarith
  have c4 := abs_sub_abs_le_abs_sub (fl (fl P + fl Q) + fl R) (P + Q + R)
  have c5 := abs_add_three P Q R
  have c6 : |fl (fl P + fl Q) + fl R| ≤ 101 / 100 * M + 8 * tau200 := by linarith
  have c7 := fl_err h (x := fl (fl P + fl Q) + fl R) (by linarith)
  have c8 := mul_le_mul_of_nonneg_right c6 e0.le
  have c9 := abs_add_le (fl (fl (fl P + fl Q) + fl R) - (fl (fl P + fl Q) + fl R)) (fl (fl P + fl Q) + fl R - (P + Q + R))
  rw [sub_add_sub_cancel] at c9
  linarith

/-- The length of a vector. -/
theorem norm_err {fl : ℝ → ℝ} (h : Rounding fl) {w : Vec ℝ} {r : ℝ} (r0 : 0 ≤ r) (r1 : r ≤ 201 / 100) (hr : r ^ 2 = dot w w) :
    |w.norm fl Real.sqrt - r| ≤ 10 * eps53 := by
  have e0 := eps53_pos
  have e1 := eps53_le
  have t1 := tau200_le
  have x0 := mul_self_nonneg w.x
  have y0 := mul_self_nonneg w.y
  have z0 := mul_self_nonneg w.z
  have hd : dot w w = w.x * w.x + w.y * w.y + w.z * w.z := rfl
  have r4 : r ^ 2 ≤ 5 := by nlinarith
  have a := dot_err h (P := w.x * w.x) (Q := w.y * w.y) (R := w.z * w.z) (M := r ^ 2)
    (by rw [abs_of_nonneg x0, abs_of_nonneg y0, abs_of_nonneg z0, hr, hd]) (by linarith)
  rw [← hd, ← hr] at a
  have b := sqrt_tol (N := Vec.norm2 fl w) (A := 7 / 2 * eps53 * r) (B := 1 / 10 ^ 28) r0 (by positivity) (by positivity) (by
    refine a.trans ?_
    have : (10 : ℝ) * tau200 ≤ (1 / 10 ^ 28) ^ 2 := by unfold tau200; norm_num
    linarith [show 7 / 2 * eps53 * r ^ 2 = 7 / 2 * eps53 * r * r by ring])
  have c : (1 : ℝ) / 10 ^ 28 ≤ eps53 / 100 := by unfold eps53; norm_num
  have m := mul_le_mul_of_nonneg_left r1 e0.le
  have d := abs_sub_abs_le_abs_sub (Real.sqrt (Vec.norm2 fl w)) r
  rw [abs_of_nonneg r0] at d
  have f := fl_err h (x := Real.sqrt (Vec.norm2 fl w)) (by linarith)
  have g := mul_le_mul_of_nonneg_right (by linarith : |Real.sqrt (Vec.norm2 fl w)| ≤ 21 / 10) e0.le
  have i := abs_add_le (fl (Real.sqrt (Vec.norm2 fl w)) - Real.sqrt (Vec.norm2 fl w)) (Real.sqrt (Vec.norm2 fl w) - r)
  rw [sub_add_sub_cancel] at i
  unfold Vec.norm
  linarith

/-- The length of a nearby vector. -/
theorem length_lip {v w : Vec ℝ} {r s B : ℝ} (r0 : 0 ≤ r) (s0 : 0 ≤ s) (hr : r ^ 2 = dot v v) (hs : s ^ 2 = dot w w) (B0 : 0 ≤ B)
    (hB : (v.x - w.x) ^ 2 + (v.y - w.y) ^ 2 + (v.z - w.z) ^ 2 ≤ B ^ 2) : |r - s| ≤ B := by
  have c : dot v w ≤ r * s := by
    refine le_of_sq_le_sq ?_ (by positivity)
    rw [mul_pow, hr, hs]
    unfold dot
    nlinarith [sq_nonneg (v.x * w.y - v.y * w.x), sq_nonneg (v.x * w.z - v.z * w.x), sq_nonneg (v.y * w.z - v.z * w.y)]
  refine abs_le_of_sq_le_sq ?_ B0
  refine le_trans ?_ hB
  unfold dot at c hr hs
  linarith [show (r - s) ^ 2 = r ^ 2 - 2 * (r * s) + s ^ 2 by ring,
    show (v.x - w.x) ^ 2 + (v.y - w.y) ^ 2 + (v.z - w.z) ^ 2 = (v.x * v.x + v.y * v.y + v.z * v.z) - 2 * (v.x * w.x + v.y * w.y + v.z * w.z) +
      (w.x * w.x + w.y * w.y + w.z * w.z) by ring]

/-! ## Latitudes and longitudes -/

/-- The sine of half a difference. -/
theorem half_err {fl sin : ℝ → ℝ} (h : Rounding fl) (hsin : NearRel sin Real.sin) {d : ℝ} (hd : |d| ≤ 63 / 10) :
    |fl (sin (fl (1 / 2 * fl d))) - Real.sin (1 / 2 * d)| ≤ 12 * eps53 := by
  have e0 := eps53_pos
  have e1 := eps53_le
  have t1 := tau200_le
  have a1 := fl_err h (x := d) (by linarith)
  have m1 := mul_le_mul_of_nonneg_right hd e0.le
  have a2 := abs_sub_abs_le_abs_sub (fl d) d
  have half : ∀ x : ℝ, |1 / 2 * x| = 1 / 2 * |x| := fun x => by rw [abs_mul, abs_of_pos (by norm_num : (0 : ℝ) < 1 / 2)]
  have a3 := fl_err h (x := 1 / 2 * fl d) (by rw [half]; linarith)
  rw [half] at a3
  have m2 := mul_le_mul_of_nonneg_right (by linarith : |fl d| ≤ 64 / 10) e0.le
  have a4 := abs_add_le (fl (1 / 2 * fl d) - 1 / 2 * fl d) (1 / 2 * (fl d - d))
  rw [show fl (1 / 2 * fl d) - 1 / 2 * fl d + 1 / 2 * (fl d - d) = fl (1 / 2 * fl d) - 1 / 2 * d by ring, half] at a4
  have a5 := (Real.abs_sin_sub_sin_le (fl (1 / 2 * fl d)) (1 / 2 * d))
  have a6 := lib_err h hsin (Real.abs_sin_le_one (fl (1 / 2 * fl d)))
  have m3 := mul_le_mul_of_nonneg_left (Real.abs_sin_le_one (fl (1 / 2 * fl d))) e0.le
  have a7 := abs_add_le (fl (sin (fl (1 / 2 * fl d))) - Real.sin (fl (1 / 2 * fl d))) (Real.sin (fl (1 / 2 * fl d)) - Real.sin (1 / 2 * d))
  rw [sub_add_sub_cancel] at a7
  linarith

/-- A square. -/
theorem square_err {fl : ℝ → ℝ} (h : Rounding fl) {D S : ℝ} (hS : |S| ≤ 1) (hD : |D - S| ≤ 12 * eps53) :
    |fl (D * D) - S * S| ≤ 26 * eps53 * |S| + 350 * (eps53 * eps53) := by
  have e0 := eps53_pos
  have e1 := eps53_le
  have t1 := tau200_le
  have q0 := mul_pos e0 e0
  have t2 : tau200 ≤ eps53 * eps53 := by unfold eps53 tau200; norm_num
  have S0 := abs_nonneg S
  have SS : |S * S| ≤ |S| := by rw [abs_mul]; exact mul_le_of_le_one_left S0 hS
  have a1 := abs_sub_abs_le_abs_sub D S
  have a2 : |D + S| ≤ 2 * |S| + 12 * eps53 := by linarith [abs_add_le D S]
  have a3 : |D * D - S * S| ≤ 24 * eps53 * |S| + 144 * (eps53 * eps53) := by
    rw [show D * D - S * S = (D - S) * (D + S) by ring, abs_mul]
    have := mul_le_mul hD a2 (abs_nonneg _) (by linarith)
    linarith
  have a4 := abs_sub_abs_le_abs_sub (D * D) (S * S)
  have es : eps53 * |S| ≤ eps53 := mul_le_of_le_one_right e0.le hS
  have qq : eps53 * eps53 ≤ eps53 := mul_le_of_le_one_right e0.le (by linarith)
  have a5 := fl_err h (x := D * D) (by linarith)
  have a6 : |D * D| ≤ |S| + 200 * eps53 := by linarith
  have a7 := mul_le_mul_of_nonneg_right a6 e0.le
  have a8 := abs_add_le (fl (D * D) - D * D) (D * D - S * S)
  rw [sub_add_sub_cancel] at a8
  have := mul_nonneg e0.le S0
  linarith

/-- A product with a computed cosine. `M` bounds the first factor. -/
theorem mul_cos_err {fl : ℝ → ℝ} (h : Rounding fl) {T X c C M α β : ℝ} (hT : |T - X| ≤ α * eps53 * M + β * (eps53 * eps53)) (hX : |X| ≤ M)
    (hM : M ≤ 1) (α0 : 0 ≤ α) (α1 : α ≤ 50) (β0 : 0 ≤ β) (β1 : β ≤ 1000) (c0 : 0 ≤ c) (c1 : c ≤ 1) (hC : |C - c| ≤ 4 * eps53 * |c| + tau200) :
    |fl (T * C) - X * c| ≤ (α + 5) * eps53 * (M * c) + (β + 400) * (eps53 * eps53) := by
  have e0 := eps53_pos
  have e1 := eps53_le
  have t0 := tau200_pos
  have q0 := mul_pos e0 e0
  have t2 : tau200 ≤ eps53 * eps53 := by unfold eps53 tau200; norm_num
  have M0 : 0 ≤ M := (abs_nonneg _).trans hX
  have Mc0 : 0 ≤ M * c := mul_nonneg M0 c0
  have Mc1 : M * c ≤ 1 := mul_le_one₀ hM c0 c1
  have qe : eps53 * eps53 ≤ eps53 * (1 / 10 ^ 15) := mul_le_mul_of_nonneg_left e1 e0.le
  rw [abs_of_nonneg c0] at hC
  have ec : eps53 * c ≤ eps53 := mul_le_of_le_one_right e0.le c1
  have aM : α * eps53 * M ≤ 50 * eps53 := by
    have := mul_le_mul (mul_le_mul_of_nonneg_right α1 e0.le) hM M0 (by linarith)
    linarith
  have bq : β * (eps53 * eps53) ≤ 1000 * (eps53 * eps53) := mul_le_mul_of_nonneg_right β1 q0.le
  have bq0 : 0 ≤ β * (eps53 * eps53) := mul_nonneg β0 q0.le
  have hT' : |T - X| ≤ 51 * eps53 := by linarith
  have hC' : |C - c| ≤ 5 * eps53 := by linarith
  have a1 := mul_le_mul hT' hC' (abs_nonneg _) (by linarith)
  have a2 := mul_le_mul_of_nonneg_right hT c0
  have a3 := mul_le_mul hX hC (abs_nonneg _) M0
  have a4 : M * tau200 ≤ eps53 * eps53 := (mul_le_of_le_one_left t0.le hM).trans t2
  have a5 : β * (eps53 * eps53) * c ≤ β * (eps53 * eps53) := mul_le_of_le_one_right bq0 c1
  have b1 : |T * C - X * c| ≤ (α + 4) * (eps53 * (M * c)) + β * (eps53 * eps53) + 256 * (eps53 * eps53) := by
    rw [show T * C - X * c = (T - X) * c + (T - X) * (C - c) + X * (C - c) by ring]
    have := abs_add_three ((T - X) * c) ((T - X) * (C - c)) (X * (C - c))
    rw [abs_mul, abs_mul, abs_mul, abs_of_nonneg c0] at this
    linarith
  have b2 := abs_sub_abs_le_abs_sub (T * C) (X * c)
  have b3 : |X * c| ≤ M * c := by
    rw [abs_mul, abs_of_nonneg c0]
    exact mul_le_mul_of_nonneg_right hX c0
  have m0 : 0 ≤ eps53 * (M * c) := mul_nonneg e0.le Mc0
  have m1 : eps53 * (M * c) ≤ eps53 := mul_le_of_le_one_right e0.le Mc1
  have m2 : (α + 4) * (eps53 * (M * c)) ≤ 54 * eps53 := by
    have := mul_le_mul (by linarith : α + 4 ≤ 54) m1 m0 (by norm_num)
    linarith
  have b4 : |T * C| ≤ M * c + 60 * eps53 := by linarith
  have b5 := fl_err h (x := T * C) (by linarith)
  have b6 := mul_le_mul_of_nonneg_right b4 e0.le
  have b7 := abs_add_le (fl (T * C) - T * C) (T * C - X * c)
  rw [sub_add_sub_cancel] at b7
  linarith

/-- The number `x` of `distance`; `σ` is the sine of half the distance. -/
theorem hav_err {fl : ℝ → ℝ} (h : Rounding fl) {D₁ D₂ S₁ S₂ c₁ c₂ C₁ C₂ σ : ℝ} (s0 : 0 ≤ σ) (s1 : σ ≤ 1)
    (hs : S₁ * S₁ + S₂ * S₂ * c₁ * c₂ = σ ^ 2) (h1 : |S₁| ≤ 1) (h2 : |S₂| ≤ 1) (d1 : |D₁ - S₁| ≤ 12 * eps53) (d2 : |D₂ - S₂| ≤ 12 * eps53)
    (a0 : 0 ≤ c₁) (a1 : c₁ ≤ 1) (b0 : 0 ≤ c₂) (b1 : c₂ ≤ 1) (hC₁ : |C₁ - c₁| ≤ 4 * eps53 * |c₁| + tau200)
    (hC₂ : |C₂ - c₂| ≤ 4 * eps53 * |c₂| + tau200) :
    |fl (fl (D₁ * D₁) + fl (fl (fl (D₂ * D₂) * C₁) * C₂)) - σ ^ 2| ≤ 64 * eps53 * σ + (40 * eps53) ^ 2 := by
  have e0 := eps53_pos
  have e1 := eps53_le
  have q0 := mul_pos e0 e0
  have t2 : tau200 ≤ eps53 * eps53 := by unfold eps53 tau200; norm_num
  have qe : eps53 * eps53 ≤ eps53 * (1 / 10 ^ 15) := mul_le_mul_of_nonneg_left e1 e0.le
  have S20 := abs_nonneg S₂
  have p := square_err h h1 d1
  have t := square_err h h2 d2
  have u := mul_cos_err h t (by rw [abs_mul]; exact mul_le_of_le_one_left S20 h2) h2 (by norm_num) (by norm_num) (by norm_num) (by norm_num) a0 a1 hC₁
  have v := mul_cos_err h u (by
      rw [abs_mul, abs_of_nonneg a0, abs_mul]
      exact mul_le_mul_of_nonneg_right (mul_le_of_le_one_left S20 h2) a0)
    (mul_le_one₀ h2 a0 a1) (by norm_num) (by norm_num) (by norm_num) (by norm_num) b0 b1 hC₂
  have g0 : 0 ≤ c₁ * c₂ := mul_nonneg a0 b0
  have g1 : c₁ * c₂ ≤ 1 := mul_le_one₀ a1 b0 b1
  have z1 := mul_self_nonneg S₁
  have z2 := mul_nonneg (mul_self_nonneg S₂) g0
  have k1 : |S₁| ≤ σ := abs_le_of_sq_le_sq (by rw [← hs, pow_two]; linarith) s0
  have k2 : |S₂| * c₁ * c₂ ≤ σ := by
    refine le_of_sq_le_sq ?_ s0
    have : (|S₂| * c₁ * c₂) ^ 2 = S₂ * S₂ * (c₁ * c₂) * (c₁ * c₂) := by
      rw [show (|S₂| * c₁ * c₂) ^ 2 = |S₂| * |S₂| * (c₁ * c₂) * (c₁ * c₂) by ring, abs_mul_abs_self]
    rw [this, ← hs]
    have := mul_le_of_le_one_right z2 g1
    linarith
  have w1 := mul_le_mul_of_nonneg_left k1 e0.le
  have w2 := mul_le_mul_of_nonneg_left k2 e0.le
  have w3 : eps53 * σ ≤ eps53 := mul_le_of_le_one_right e0.le s1
  have w0 : 0 ≤ eps53 * σ := mul_nonneg e0.le s0
  generalize fl (D₁ * D₁) = P at *
  generalize fl (fl (fl (D₂ * D₂) * C₁) * C₂) = V at *
  have x1 := abs_add_le (P - S₁ * S₁) (V - S₂ * S₂ * c₁ * c₂)
  rw [show P - S₁ * S₁ + (V - S₂ * S₂ * c₁ * c₂) = P + V - σ ^ 2 by rw [← hs]; ring] at x1
  have x2 : |P + V - σ ^ 2| ≤ 62 * (eps53 * σ) + 1500 * (eps53 * eps53) := by linarith
  have x3 := abs_sub_abs_le_abs_sub (P + V) (σ ^ 2)
  have ss : σ ^ 2 ≤ σ := by rw [pow_two]; exact mul_le_of_le_one_left s0 s1
  rw [abs_of_nonneg (sq_nonneg σ)] at x3
  have x4 : |P + V| ≤ σ + 63 * eps53 := by linarith
  have x5 := fl_err h (x := P + V) (by linarith)
  have x6 := mul_le_mul_of_nonneg_right x4 e0.le
  have x7 := abs_add_le (fl (P + V) - (P + V)) (P + V - σ ^ 2)
  rw [sub_add_sub_cancel] at x7
  linarith [show (40 * eps53) ^ 2 = 1600 * (eps53 * eps53) by ring]

end Verif
