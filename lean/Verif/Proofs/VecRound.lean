import Verif.Proofs.DistRound

/-!
# Rounding errors of the vector operations, relative to the sizes of the operands
-/

namespace Verif
open Spec

/-- The largest values for which the errors are bounded. -/
noncomputable def big1000 : ℝ := 2 ^ 1000

/-- The error of a number that underflows. -/
noncomputable def eta75 : ℝ := 1 / 2 ^ 1075

theorem eta75_pos : 0 < eta75 := by unfold eta75; positivity

theorem eta75_eq (n : ℕ) (h : n ≤ 1075) : eta75 * 2 ^ (1075 - n) = 1 / 2 ^ n := by
  unfold eta75
  rw [one_div_mul_eq_div, div_eq_div_iff (by positivity) (by positivity), one_mul, ← pow_add, Nat.sub_add_cancel h]

/-- The rounding error, with a bound `t` for the part caused by underflow. -/
theorem fl_gen {fl : ℝ → ℝ} (h : Rounding fl) {x t : ℝ} (hx : |x| ≤ big1000) (ht : eta75 ≤ t) : |fl x - x| ≤ |x| * eps53 + t := by
  have h1 := h x (hx.trans (pow_le_pow_right₀ (by norm_num) (by norm_num)))
  have e : |x| / 2 ^ 53 = |x| * eps53 := by unfold eps53; ring
  unfold eta75 at ht
  linarith

theorem eta75_le : eta75 ≤ 1 / 2 ^ 800 * (eps53 / 1000) := by
  have h := eta75_eq 863 (by norm_num)
  have h1 : eta75 * 1 ≤ eta75 * 2 ^ (1075 - 863) := mul_le_mul_of_nonneg_left (one_le_pow₀ (by norm_num)) eta75_pos.le
  rw [mul_one, h] at h1
  refine h1.trans ?_
  have e : (1 : ℝ) / 2 ^ 863 = 1 / 2 ^ 800 * (1 / 2 ^ 63) := by
    rw [one_div_mul_one_div, ← pow_add]
  rw [e]
  refine mul_le_mul_of_nonneg_left ?_ (by positivity)
  unfold eps53
  norm_num

/-- A difference of two products, with a bound `M` for the sum of their absolute values. -/
theorem cross_gen {fl : ℝ → ℝ} (h : Rounding fl) {P Q M : ℝ} (hb : |P| + |Q| ≤ M) (hM : M ≤ big1000 / 2) (ht : eta75 ≤ M * eps53 / 1000) :
    |fl (fl P - fl Q) - (P - Q)| ≤ 201 / 100 * (M * eps53) := by
  have e0 := eps53_pos
  have e1 := eps53_le
  have P0 := abs_nonneg P
  have Q0 := abs_nonneg Q
  have n0 := eta75_pos
  have a1 := fl_gen h (x := P) (by linarith) ht
  have a2 := fl_gen h (x := Q) (by linarith) ht
  have a3 := abs_sub (fl P - P) (fl Q - Q)
  rw [show fl P - P - (fl Q - Q) = fl P - fl Q - (P - Q) by ring] at a3
  have m := mul_le_mul_of_nonneg_right hb e0.le
  have a4 := abs_sub_abs_le_abs_sub (fl P - fl Q) (P - Q)
  have a5 := abs_sub P Q
  have M0 : 0 ≤ M := by linarith
  have me := mul_le_mul_of_nonneg_left e1 M0
  have E0 : 0 ≤ M * eps53 := by positivity
  have ee := mul_le_mul_of_nonneg_left e1 E0
  have a6 := fl_gen h (x := fl P - fl Q) (by linarith) ht
  have m2 := mul_le_mul_of_nonneg_right (by linarith : |fl P - fl Q| ≤ M + 2 * (M * eps53)) e0.le
  have a7 := abs_add_le (fl (fl P - fl Q) - (fl P - fl Q)) (fl P - fl Q - (P - Q))
  rw [sub_add_sub_cancel] at a7
  linarith

/-- A sum of three products, with a bound `M` for the sum of their absolute values. -/
theorem dot_gen {fl : ℝ → ℝ} (h : Rounding fl) {P Q R M : ℝ} (hb : |P| + |Q| + |R| ≤ M) (hM : M ≤ big1000 / 2) (ht : eta75 ≤ M * eps53 / 1000) :
    |fl (fl (fl P + fl Q) + fl R) - (P + Q + R)| ≤ 301 / 100 * (M * eps53) := by
  have e0 := eps53_pos
  have e1 := eps53_le
  have P0 := abs_nonneg P
  have Q0 := abs_nonneg Q
  have R0 := abs_nonneg R
  have n0 := eta75_pos
  have M0 : 0 ≤ M := by linarith
  have me := mul_le_mul_of_nonneg_left e1 M0
  have E0 : 0 ≤ M * eps53 := by positivity
  have ee := mul_le_mul_of_nonneg_left e1 E0
  have a1 := fl_gen h (x := P) (by linarith) ht
  have a2 := fl_gen h (x := Q) (by linarith) ht
  have a3 := fl_gen h (x := R) (by linarith) ht
  have m := mul_le_mul_of_nonneg_right hb e0.le
  have b1 := abs_add_le (fl P - P) (fl Q - Q)
  rw [show fl P - P + (fl Q - Q) = fl P + fl Q - (P + Q) by ring] at b1
  have b2 := abs_sub_abs_le_abs_sub (fl P + fl Q) (P + Q)
  have b3 := abs_add_le P Q
  have mR := mul_nonneg R0 e0.le
  have mPQ := mul_nonneg (add_nonneg P0 Q0) e0.le
  have b5 : |fl P + fl Q| ≤ |P| + |Q| + 2 * (M * eps53) := by linarith
  have b4 := fl_gen h (x := fl P + fl Q) (by linarith) ht
  have b6 := mul_le_mul_of_nonneg_right b5 e0.le
  have c1 := abs_add_le (fl (fl P + fl Q) - (fl P + fl Q)) (fl P + fl Q - (P + Q))
  rw [sub_add_sub_cancel] at c1
  have c2 := abs_add_le (fl (fl P + fl Q) - (P + Q)) (fl R - R)
  rw [show fl (fl P + fl Q) - (P + Q) + (fl R - R) = fl (fl P + fl Q) + fl R - (P + Q + R) by ring] at c2
  have c4 := abs_sub_abs_le_abs_sub (fl (fl P + fl Q) + fl R) (P + Q + R)
  have c5 := abs_add_three P Q R
  have c6 : |fl (fl P + fl Q) + fl R| ≤ M + 4 * (M * eps53) := by linarith
  have c7 := fl_gen h (x := fl (fl P + fl Q) + fl R) (by linarith) ht
  have c8 := mul_le_mul_of_nonneg_right c6 e0.le
  have c9 := abs_add_le (fl (fl (fl P + fl Q) + fl R) - (fl (fl P + fl Q) + fl R)) (fl (fl P + fl Q) + fl R - (P + Q + R))
  rw [sub_add_sub_cancel] at c9
  linarith

/-- The square root of a number with a small relative error. -/
theorem sqrt_rel {N r k : ℝ} (r0 : 0 < r) (k0 : 0 ≤ k) (k1 : k ≤ 1 / 100) (hN : |N - r ^ 2| ≤ k * r ^ 2) : |Real.sqrt N - r| ≤ 505 / 1000 * k * r := by
  rw [abs_le] at hN ⊢
  have hr := sq_nonneg r
  have kr := mul_nonneg k0 hr
  have kkr := mul_nonneg k0 kr
  have kk := mul_le_mul_of_nonneg_right k1 kr
  constructor
  · rw [neg_le_sub_iff_le_add, ← sub_le_iff_le_add]
    apply Real.le_sqrt_of_sq_le
    have : (r - 505 / 1000 * k * r) ^ 2 = r ^ 2 - 101 / 100 * (k * r ^ 2) + 255025 / 1000000 * (k * (k * r ^ 2)) := by ring
    linarith
  · rw [sub_le_iff_le_add']
    apply Real.sqrt_le_iff.2 ⟨by positivity, ?_⟩
    have : (r + 505 / 1000 * k * r) ^ 2 = r ^ 2 + 101 / 100 * (k * r ^ 2) + 255025 / 1000000 * (k * (k * r ^ 2)) := by ring
    linarith

/-- The inverse of a number with a small relative error. -/
theorem inv_rel {n r k : ℝ} (r0 : 0 < r) (k1 : k ≤ 1 / 1000) (hn : |n - r| ≤ k * r) : |1 / n - 1 / r| ≤ 1002 / 1000 * k * (1 / r) := by
  have k0 : 0 ≤ k := by
    by_contra hc
    have := mul_neg_of_neg_of_pos (not_le.1 hc) r0
    linarith [abs_nonneg (n - r)]
  have kr := mul_le_mul_of_nonneg_right k1 r0.le
  have h := abs_le.1 hn
  have n1 : 999 / 1000 * r ≤ n := by linarith
  have n0 : 0 < n := by linarith
  rw [div_sub_div _ _ n0.ne' r0.ne', abs_div, abs_of_pos (mul_pos n0 r0), div_le_iff₀ (mul_pos n0 r0), one_mul, mul_one, abs_sub_comm]
  refine hn.trans ?_
  rw [show 1002 / 1000 * k * (1 / r) * (n * r) = 1002 / 1000 * k * n by field_simp]
  have := mul_le_mul_of_nonneg_left n1 (mul_nonneg (by norm_num : (0 : ℝ) ≤ 1002 / 1000) k0)
  have := mul_nonneg k0 r0.le
  linarith

/-- `norm` has a relative error of about `5/2` units. -/
theorem norm_gen {fl : ℝ → ℝ} (h : Rounding fl) {v : Vec ℝ} {r : ℝ} (r0 : 1 / 2 ^ 400 ≤ r) (r1 : r ≤ 2 ^ 400) (hr : r ^ 2 = dot v v) :
    |v.norm fl Real.sqrt - r| ≤ 254 / 100 * eps53 * r := by
  have e0 := eps53_pos
  have e1 := eps53_le
  have rp : 0 < r := lt_of_lt_of_le (by positivity) r0
  have x0 := mul_self_nonneg v.x
  have y0 := mul_self_nonneg v.y
  have z0 := mul_self_nonneg v.z
  have hd : dot v v = v.x * v.x + v.y * v.y + v.z * v.z := rfl
  have s0 : (1 : ℝ) / 2 ^ 800 ≤ r ^ 2 := by
    have := pow_le_pow_left₀ (by positivity) r0 2
    rwa [div_pow, one_pow, ← pow_mul] at this
  have s1 : r ^ 2 ≤ big1000 / 2 := by
    have := pow_le_pow_left₀ rp.le r1 2
    rw [← pow_mul] at this
    refine this.trans ?_
    rw [le_div_iff₀ (by norm_num), ← pow_succ]
    exact pow_le_pow_right₀ (by norm_num) (by norm_num)
  have n1 : eta75 ≤ r ^ 2 * eps53 / 1000 := by
    refine eta75_le.trans ?_
    rw [mul_div_assoc]
    exact mul_le_mul_of_nonneg_right s0 (by positivity)
  have n2 : eta75 ≤ r * eps53 / 1000 := by
    refine eta75_le.trans ?_
    rw [mul_div_assoc]
    refine mul_le_mul_of_nonneg_right (le_trans ?_ r0) (by positivity)
    exact one_div_le_one_div_of_le (by positivity) (pow_le_pow_right₀ (by norm_num) (by norm_num))
  have a := dot_gen h (P := v.x * v.x) (Q := v.y * v.y) (R := v.z * v.z) (M := r ^ 2)
    (by rw [abs_of_nonneg x0, abs_of_nonneg y0, abs_of_nonneg z0, hr, hd]) s1 n1
  rw [← hd, ← hr] at a
  have b := sqrt_rel (N := Vec.norm2 fl v) (k := 301 / 100 * eps53) rp (by positivity) (by linarith) (a.trans (by linarith))
  have d := abs_sub_abs_le_abs_sub (Real.sqrt (Vec.norm2 fl v)) r
  rw [abs_of_pos rp] at d
  have re := mul_le_mul_of_nonneg_left e1 rp.le
  have f := fl_gen h (x := Real.sqrt (Vec.norm2 fl v)) (by
    have : (2 : ℝ) ^ 400 * 2 ≤ big1000 := by rw [← pow_succ]; exact pow_le_pow_right₀ (by norm_num) (by norm_num)
    replace this := (mul_le_mul_of_nonneg_right r1 (by norm_num : (0 : ℝ) ≤ 2)).trans this
    clear r0 r1 s0
    linarith) n2
  have g := mul_le_mul_of_nonneg_right (by linarith : |Real.sqrt (Vec.norm2 fl v)| ≤ 1001 / 1000 * r) e0.le
  have i := abs_add_le (fl (Real.sqrt (Vec.norm2 fl v)) - Real.sqrt (Vec.norm2 fl v)) (Real.sqrt (Vec.norm2 fl v) - r)
  rw [sub_add_sub_cancel] at i
  unfold Vec.norm
  have := mul_nonneg e0.le rp.le
  linarith

/-- A component of the normalized vector. -/
theorem scale_gen {fl : ℝ → ℝ} (h : Rounding fl) {m i x : ℝ} (i0 : 0 ≤ i) (hx : |x| * i ≤ 1) (hm : |m - i| ≤ 356 / 100 * eps53 * i) :
    |fl (x * m) - x * i| ≤ 5 * eps53 * (|x| * i) + eta75 := by
  have e0 := eps53_pos
  have e1 := eps53_le
  have xi : 0 ≤ |x| * i := mul_nonneg (abs_nonneg x) i0
  have a := mul_le_mul_of_nonneg_left hm (abs_nonneg x)
  rw [← abs_mul, mul_sub] at a
  have b := abs_sub_abs_le_abs_sub (x * m) (x * i)
  have c : |x * i| = |x| * i := by rw [abs_mul, abs_of_nonneg i0]
  have xe := mul_le_mul_of_nonneg_left e1 xi
  have B : (2 : ℝ) ≤ big1000 := by
    calc (2 : ℝ) = 2 ^ 1 := by norm_num
      _ ≤ big1000 := pow_le_pow_right₀ (by norm_num) (by norm_num)
  have d := fl_gen h (x := x * m) (t := eta75) (by linarith) le_rfl
  have f := mul_le_mul_of_nonneg_right (by linarith : |x * m| ≤ 1001 / 1000 * (|x| * i)) e0.le
  have g := abs_add_le (fl (x * m) - x * m) (x * m - x * i)
  rw [sub_add_sub_cancel] at g
  have := mul_nonneg xi e0.le
  linarith

/-- `normalize`. -/
theorem normalize_gen {fl : ℝ → ℝ} (h : Rounding fl) {v : Vec ℝ} {r : ℝ} (r0 : 1 / 2 ^ 400 ≤ r) (r1 : r ≤ 2 ^ 400) (hr : r ^ 2 = dot v v) :
    |(v.normalize fl Real.sqrt).x - v.x / r| ≤ 5 * eps53 * (|v.x| / r) + eta75 ∧
    |(v.normalize fl Real.sqrt).y - v.y / r| ≤ 5 * eps53 * (|v.y| / r) + eta75 ∧
    |(v.normalize fl Real.sqrt).z - v.z / r| ≤ 5 * eps53 * (|v.z| / r) + eta75 := by
  have e0 := eps53_pos
  have e1 := eps53_le
  have rp : 0 < r := lt_of_lt_of_le (by positivity) r0
  have a := norm_gen h r0 r1 hr
  have b := inv_rel rp (k := 254 / 100 * eps53) (by linarith) a
  have i0 : (1 : ℝ) / 2 ^ 400 ≤ 1 / r := one_div_le_one_div_of_le rp r1
  have i1 : 1 / r ≤ 2 ^ 400 := by
    rw [div_le_iff₀ rp]
    rwa [div_le_iff₀' (by positivity)] at r0
  have ip : 0 < 1 / r := by positivity
  have ie := mul_le_mul_of_nonneg_left e1 ip.le
  have n2 : eta75 ≤ 1 / r * eps53 / 1000 := by
    refine eta75_le.trans ?_
    rw [mul_div_assoc]
    refine mul_le_mul_of_nonneg_right (le_trans ?_ i0) (by positivity)
    exact one_div_le_one_div_of_le (by positivity) (pow_le_pow_right₀ (by norm_num) (by norm_num))
  have d := abs_sub_abs_le_abs_sub (1 / Vec.norm fl Real.sqrt v) (1 / r)
  rw [abs_of_pos ip] at d
  have f := fl_gen h (x := 1 / Vec.norm fl Real.sqrt v) (by
    have : (2 : ℝ) ^ 400 * 2 ≤ big1000 := by rw [← pow_succ]; exact pow_le_pow_right₀ (by norm_num) (by norm_num)
    replace this := (mul_le_mul_of_nonneg_right i1 (by norm_num : (0 : ℝ) ≤ 2)).trans this
    clear r0 r1 i0 i1
    linarith) n2
  have g := mul_le_mul_of_nonneg_right (by linarith : |1 / Vec.norm fl Real.sqrt v| ≤ 1001 / 1000 * (1 / r)) e0.le
  have i := abs_add_le (fl (1 / Vec.norm fl Real.sqrt v) - 1 / Vec.norm fl Real.sqrt v) (1 / Vec.norm fl Real.sqrt v - 1 / r)
  rw [sub_add_sub_cancel] at i
  have m := mul_nonneg e0.le ip.le
  have key : |fl (1 / Vec.norm fl Real.sqrt v) - 1 / r| ≤ 356 / 100 * eps53 * (1 / r) := by linarith
  have hz : ¬ (v.x = 0 ∧ v.y = 0 ∧ v.z = 0) := by
    rintro ⟨z1, z2, z3⟩
    unfold dot at hr
    rw [z1, z2, z3] at hr
    have := pow_pos rp 2
    linarith
  have hd : dot v v = v.x * v.x + v.y * v.y + v.z * v.z := rfl
  have comp : ∀ x : ℝ, x * x ≤ dot v v → |x| * (1 / r) ≤ 1 := by
    intro x hx
    rw [mul_one_div, div_le_one rp]
    apply abs_le_of_sq_le_sq _ rp.le
    rw [hr, pow_two]; exact hx
  unfold Vec.normalize
  rw [if_neg hz]
  have dv : ∀ x : ℝ, x / r = x * (1 / r) := fun x => (mul_one_div x r).symm
  simp only [Vec.scale]
  rw [dv v.x, dv v.y, dv v.z, dv |v.x|, dv |v.y|, dv |v.z|]
  have x0 := mul_self_nonneg v.x
  have y0 := mul_self_nonneg v.y
  have z0 := mul_self_nonneg v.z
  exact ⟨scale_gen h ip.le (comp _ (by linarith)) key, scale_gen h ip.le (comp _ (by linarith)) key, scale_gen h ip.le (comp _ (by linarith)) key⟩

theorem eta75_tiny : eta75 ≤ eps53 / 1000 := by
  refine eta75_le.trans ?_
  have : (1 : ℝ) / 2 ^ 800 ≤ 1 := by rw [div_le_one (by positivity)]; exact one_le_pow₀ (by norm_num)
  have := mul_le_mul_of_nonneg_right this (by have := eps53_pos; positivity : (0 : ℝ) ≤ eps53 / 1000)
  linarith

/-- The square of a component of a unit vector. -/
theorem unit_sq {w u : ℝ} (hu : |u| ≤ 1) (hw : |w - u| ≤ 5 * eps53 * |u| + eta75) : |w * w - u * u| ≤ 101 / 10 * eps53 * (u * u) + 3 * eta75 := by
  have e0 := eps53_pos
  have e1 := eps53_le
  have n0 := eta75_pos
  have n1 := eta75_tiny
  have u0 := abs_nonneg u
  have a := abs_add_le (w - u) (2 * u)
  rw [show w - u + 2 * u = w + u by ring, abs_mul, abs_two] at a
  have ue := mul_le_mul_of_nonneg_right e1 u0
  have b : |w + u| ≤ 201 / 100 * |u| + eta75 := by linarith
  have c := mul_le_mul hw b (abs_nonneg _) (add_nonneg (mul_nonneg (mul_nonneg (by norm_num) e0.le) u0) n0.le)
  rw [← abs_mul, show (w - u) * (w + u) = w * w - u * u by ring] at c
  refine c.trans ?_
  have uu : |u| * |u| = u * u := abs_mul_abs_self u
  have m1 := mul_le_mul_of_nonneg_right hu n0.le
  have m2 : eps53 * |u| * eta75 ≤ 1 / 1000 * eta75 := mul_le_mul_of_nonneg_right (by linarith) n0.le
  have m3 := mul_le_mul_of_nonneg_right (by linarith : eta75 ≤ 1 / 1000) n0.le
  have m4 : 0 ≤ eps53 * (u * u) := mul_nonneg e0.le (mul_self_nonneg u)
  linarith [show (5 * eps53 * |u| + eta75) * (201 / 100 * |u| + eta75) =
    1005 / 100 * eps53 * (|u| * |u|) + 5 * (eps53 * |u| * eta75) + 201 / 100 * (|u| * eta75) + eta75 * eta75 by ring,
    show eps53 * (|u| * |u|) = eps53 * (u * u) by rw [uu]]

/-- The normalized vector has unit length up to a few units. -/
theorem normalize_len {fl : ℝ → ℝ} (h : Rounding fl) {v : Vec ℝ} {r : ℝ} (r0 : 1 / 2 ^ 400 ≤ r) (r1 : r ≤ 2 ^ 400) (hr : r ^ 2 = dot v v) :
    |dot (v.normalize fl Real.sqrt) (v.normalize fl Real.sqrt) - 1| ≤ 105 / 10 * eps53 := by
  have rp : 0 < r := lt_of_lt_of_le (by positivity) r0
  have e0 := eps53_pos
  have n1 := eta75_tiny
  obtain ⟨a, b, c⟩ := normalize_gen h r0 r1 hr
  have hd : dot v v = v.x * v.x + v.y * v.y + v.z * v.z := rfl
  have x0 := mul_self_nonneg v.x
  have y0 := mul_self_nonneg v.y
  have z0 := mul_self_nonneg v.z
  have comp : ∀ x : ℝ, x * x ≤ dot v v → |x / r| ≤ 1 := by
    intro x hx
    rw [abs_div, abs_of_pos rp, div_le_one rp]
    apply abs_le_of_sq_le_sq _ rp.le
    rw [hr, pow_two]; exact hx
  have ab : ∀ x : ℝ, |x| / r = |x / r| := fun x => by rw [abs_div, abs_of_pos rp]
  rw [ab] at a b c
  have a' := abs_le.1 (unit_sq (comp v.x (by linarith)) a)
  have b' := abs_le.1 (unit_sq (comp v.y (by linarith)) b)
  have c' := abs_le.1 (unit_sq (comp v.z (by linarith)) c)
  have s : v.x / r * (v.x / r) + v.y / r * (v.y / r) + v.z / r * (v.z / r) = 1 := by
    have : v.x / r * (v.x / r) + v.y / r * (v.y / r) + v.z / r * (v.z / r) = dot v v / r ^ 2 := by unfold dot; field_simp
    rw [this, ← hr, div_self (by positivity)]
  have s2 : eps53 * (v.x / r * (v.x / r)) + eps53 * (v.y / r * (v.y / r)) + eps53 * (v.z / r * (v.z / r)) = eps53 := by
    rw [← mul_add, ← mul_add, s, mul_one]
  unfold dot
  rw [abs_le]
  constructor <;> linarith

/-- The test `is_unit`. -/
theorem isUnit_gen {fl : ℝ → ℝ} (h : Rounding fl) {w : Vec ℝ} {k eps : ℝ} (hw : |dot w w - 1| ≤ k) (k1 : k ≤ 1 / 1000) (he : k + 4 * eps53 ≤ eps) :
    Vec.isUnit fl eps w = true := by
  have e0 := eps53_pos
  have e1 := eps53_le
  have n0 := eta75_pos
  have n1 := eta75_tiny
  have hd : dot w w = w.x * w.x + w.y * w.y + w.z * w.z := rfl
  have x0 := mul_self_nonneg w.x
  have y0 := mul_self_nonneg w.y
  have z0 := mul_self_nonneg w.z
  have hw' := abs_le.1 hw
  have B : (4 : ℝ) ≤ big1000 := by
    calc (4 : ℝ) = 2 ^ 2 := by norm_num
      _ ≤ big1000 := pow_le_pow_right₀ (by norm_num) (by norm_num)
  have a := dot_gen h (P := w.x * w.x) (Q := w.y * w.y) (R := w.z * w.z) (M := 1001 / 1000)
    (by rw [abs_of_nonneg x0, abs_of_nonneg y0, abs_of_nonneg z0]; linarith) (by linarith) (by linarith)
  rw [← hd] at a
  have a1 : |Vec.norm2 fl w - dot w w| ≤ 301 / 100 * (1001 / 1000 * eps53) := a
  have b := abs_add_le (Vec.norm2 fl w - dot w w) (dot w w - 1)
  rw [sub_add_sub_cancel] at b
  have c := fl_gen h (x := Vec.norm2 fl w - 1) (by linarith) le_rfl
  have d := mul_le_mul_of_nonneg_right (by linarith : |Vec.norm2 fl w - 1| ≤ 1 / 100) e0.le
  have f := abs_sub_abs_le_abs_sub (fl (Vec.norm2 fl w - 1)) (Vec.norm2 fl w - 1)
  unfold Vec.isUnit
  rw [decide_eq_true_eq]
  linarith

/-- The sum of the absolute values of the components. -/
theorem abs_sum_le {v : Vec ℝ} {r : ℝ} (r0 : 0 ≤ r) (hr : dot v v ≤ r ^ 2) : |v.x| + |v.y| + |v.z| ≤ 1733 / 1000 * r := by
  apply le_of_sq_le_sq _ (by positivity)
  unfold dot at hr
  have := sq_abs v.x
  have := sq_abs v.y
  have := sq_abs v.z
  have r2 := sq_nonneg r
  nlinarith [sq_nonneg (|v.x| - |v.y|), sq_nonneg (|v.y| - |v.z|), sq_nonneg (|v.x| - |v.z|)]

/-- The scalar product of a vector with small components. -/
theorem dot_small {d v : Vec ℝ} {r k : ℝ} (k0 : 0 ≤ k) (r0 : 0 ≤ r) (hr : dot v v ≤ r ^ 2) (h1 : |d.x| ≤ k) (h2 : |d.y| ≤ k) (h3 : |d.z| ≤ k) :
    |dot d v| ≤ 1733 / 1000 * (k * r) := by
  have a := abs_add_three (d.x * v.x) (d.y * v.y) (d.z * v.z)
  rw [abs_mul, abs_mul, abs_mul] at a
  have b1 := mul_le_mul_of_nonneg_right h1 (abs_nonneg v.x)
  have b2 := mul_le_mul_of_nonneg_right h2 (abs_nonneg v.y)
  have b3 := mul_le_mul_of_nonneg_right h3 (abs_nonneg v.z)
  have c := mul_le_mul_of_nonneg_left (abs_sum_le r0 hr) k0
  unfold dot
  linarith

theorem comp_le {v : Vec ℝ} {r : ℝ} (r0 : 0 ≤ r) (hr : dot v v ≤ r ^ 2) : |v.x| ≤ r ∧ |v.y| ≤ r ∧ |v.z| ≤ r := by
  unfold dot at hr
  have x0 := mul_self_nonneg v.x
  have y0 := mul_self_nonneg v.y
  have z0 := mul_self_nonneg v.z
  refine ⟨abs_le_of_sq_le_sq ?_ r0, abs_le_of_sq_le_sq ?_ r0, abs_le_of_sq_le_sq ?_ r0⟩ <;> rw [pow_two] <;> linarith

/-- The constants of `ortho`. -/
theorem ortho_const {fl : ℝ → ℝ} (h : Rounding fl) {x : ℝ} (h0 : 0 ≤ x) (h1 : x ≤ 12 / 1000) : |fl x| ≤ 13 / 1000 := by
  have e1 := eps53_le
  have e0 := eps53_pos
  have n1 := tau200_le
  have a := fl_err h (x := x) (by rw [abs_of_nonneg h0]; linarith)
  rw [abs_of_nonneg h0] at a
  have b := mul_le_mul_of_nonneg_right h1 e0.le
  have c := abs_sub_abs_le_abs_sub (fl x) x
  rw [abs_of_nonneg h0] at c
  linarith

/-- A component of the cross product of `ortho`. -/
theorem ortho_comp {fl : ℝ → ℝ} (h : Rounding fl) {r a b s t : ℝ} (r0 : 1 / 2 ^ 390 ≤ r) (r1 : r ≤ 2 ^ 390) (ha : |a| ≤ r) (hb : |b| ≤ r)
    (hs : |s| ≤ 1) (ht : |t| ≤ 1) (hst : |s| + |t| ≤ 102 / 100) : |fl (fl (a * s) - fl (b * t)) - (a * s - b * t)| ≤ 22 / 10 * eps53 * r := by
  have e0 := eps53_pos
  have rp : 0 < r := lt_of_lt_of_le (by positivity) r0
  have m1 := mul_le_mul_of_nonneg_right ha (abs_nonneg s)
  have m2 := mul_le_mul_of_nonneg_right hb (abs_nonneg t)
  have m3 := mul_le_mul_of_nonneg_left hst rp.le
  have B : (2 : ℝ) ^ 390 * 4 ≤ big1000 := by
    rw [show (4 : ℝ) = 2 ^ 2 by norm_num, ← pow_add]; exact pow_le_pow_right₀ (by norm_num) (by norm_num)
  have n : eta75 ≤ 102 / 100 * r * eps53 / 1000 := by
    refine eta75_le.trans ?_
    rw [mul_div_assoc]
    refine mul_le_mul_of_nonneg_right (le_trans ?_ (by linarith : r ≤ 102 / 100 * r)) (by positivity)
    exact (one_div_le_one_div_of_le (by positivity) (pow_le_pow_right₀ (by norm_num) (by norm_num))).trans r0
  have c := cross_gen h (P := a * s) (Q := b * t) (M := 102 / 100 * r) (by rw [abs_mul, abs_mul]; linarith)
    (by have := (mul_le_mul_of_nonneg_right r1 (by norm_num : (0 : ℝ) ≤ 4)).trans B; clear r0 r1 B; linarith) n
  have := mul_nonneg e0.le rp.le
  linarith

/-- The cross product of `ortho`: it is orthogonal up to rounding, and not short. -/
theorem ortho_cross {fl : ℝ → ℝ} (h : Rounding fl) {p : Vec ℝ} {r a b c : ℝ} (r0 : 1 / 2 ^ 390 ≤ r) (r1 : r ≤ 2 ^ 390) (hr : r ^ 2 = dot p p)
    (ha : |a| ≤ 13 / 1000) (hb : |b| ≤ 13 / 1000) (hc : |c| ≤ 13 / 1000) :
    ∃ s, 0 ≤ s ∧ s ^ 2 = dot (Vec.cross fl p (Vec.orthoDir a b c p)) (Vec.cross fl p (Vec.orthoDir a b c p)) ∧ 56 / 100 * r ≤ s ∧ s ≤ 3 * r ∧
      |dot (Vec.cross fl p (Vec.orthoDir a b c p)) p| ≤ 382 / 100 * eps53 * r ^ 2 := by
  have e0 := eps53_pos
  have e1 := eps53_le
  have rp : 0 < r := lt_of_lt_of_le (by positivity) r0
  have re := mul_le_mul_of_nonneg_right e1 rp.le
  have hX := c74_components p .X
  have hY := c74_components p .Y
  have hZ := c74_components p .Z
  obtain ⟨lx, ly, lz⟩ := comp_le rp.le hr.ge
  have sm := abs_sum_le (v := p) rp.le hr.ge
  have lin : ∀ x y z : ℝ, |y| ≤ |x| → |z| ≤ |x| → dot p p = x * x + y * y + z * z → 577 / 1000 * r ≤ |x| := by
    intro x y z hy hz hd
    refine le_of_sq_le_sq ?_ (abs_nonneg x)
    have h1 := mul_self_le_mul_self (abs_nonneg y) hy
    have h2 := mul_self_le_mul_self (abs_nonneg z) hz
    rw [abs_mul_abs_self, abs_mul_abs_self] at h1 h2
    rw [sq_abs, mul_pow, hr, hd, pow_two]
    have := mul_self_nonneg x
    linarith
  -- an exact vector `g` close to the computed one
  have fin : ∀ g k : Vec ℝ, |k.x - g.x| ≤ 22 / 10 * eps53 * r → |k.y - g.y| ≤ 22 / 10 * eps53 * r → |k.z - g.z| ≤ 22 / 10 * eps53 * r →
      dot g p = 0 → |g.x| ≤ 2 * r * (1013 / 2000) → |g.y| ≤ 2 * r * (1013 / 2000) → |g.z| ≤ 2 * r * (1013 / 2000) →
      (561 / 1000 * r ≤ |g.x| ∨ 561 / 1000 * r ≤ |g.y| ∨ 561 / 1000 * r ≤ |g.z|) →
      ∃ s, 0 ≤ s ∧ s ^ 2 = dot k k ∧ 56 / 100 * r ≤ s ∧ s ≤ 3 * r ∧ |dot k p| ≤ 382 / 100 * eps53 * r ^ 2 := by
    intro g k k1 k2 k3 hg g1 g2 g3 hl
    have k0 : 0 ≤ dot k k := by unfold dot; have := mul_self_nonneg k.x; have := mul_self_nonneg k.y; have := mul_self_nonneg k.z; linarith
    have sq := Real.sq_sqrt k0
    have s0 := Real.sqrt_nonneg (dot k k)
    obtain ⟨q1, q2, q3⟩ := comp_le s0 sq.ge
    have sa := abs_add_three k.x k.y k.z
    have d1 := abs_sub_abs_le_abs_sub k.x g.x
    have d2 := abs_sub_abs_le_abs_sub k.y g.y
    have d3 := abs_sub_abs_le_abs_sub k.z g.z
    have d4 := abs_sub_abs_le_abs_sub g.x k.x
    have d5 := abs_sub_abs_le_abs_sub g.y k.y
    have d6 := abs_sub_abs_le_abs_sub g.z k.z
    rw [abs_sub_comm] at d4 d5 d6
    refine ⟨Real.sqrt (dot k k), s0, sq, ?_, ?_, ?_⟩
    · rcases hl with hl | hl | hl <;> linarith
    · apply Real.sqrt_le_iff.2 ⟨by positivity, ?_⟩
      have c : ∀ x : ℝ, |x| ≤ 11 / 10 * r → x * x ≤ 121 / 100 * r ^ 2 := by
        intro x hx
        have := mul_self_le_mul_self (abs_nonneg x) hx
        rw [abs_mul_abs_self] at this
        linarith
      have c1 := c k.x (by linarith)
      have c2 := c k.y (by linarith)
      have c3 := c k.z (by linarith)
      have := sq_nonneg r
      unfold dot
      linarith
    · have hd := dot_small (d := ⟨k.x - g.x, k.y - g.y, k.z - g.z⟩) (v := p) (k := 22 / 10 * eps53 * r) (by positivity) rp.le hr.ge k1 k2 k3
      have e : dot ⟨k.x - g.x, k.y - g.y, k.z - g.z⟩ p = dot k p := by
        have : dot (⟨k.x - g.x, k.y - g.y, k.z - g.z⟩ : Vec ℝ) p = dot k p - dot g p := by unfold dot; ring
        rw [this, hg, sub_zero]
      rw [e] at hd
      have := mul_nonneg e0.le (sq_nonneg r)
      refine hd.trans ?_
      linarith [show eps53 * r * r = eps53 * r ^ 2 by ring]
  -- an upper bound for the components
  have up : ∀ x y s t : ℝ, |x| ≤ r → |y| ≤ r → |s| + |t| ≤ 1013 / 1000 → |x * s - y * t| ≤ 2 * r * (1013 / 2000) := by
    intro x y s t hx hy hst
    have := abs_sub (x * s) (y * t)
    rw [abs_mul, abs_mul] at this
    have m1 := mul_le_mul_of_nonneg_right hx (abs_nonneg s)
    have m2 := mul_le_mul_of_nonneg_right hy (abs_nonneg t)
    have m3 := mul_le_mul_of_nonneg_left hst rp.le
    linarith
  have o1 : |(1 : ℝ)| = 1 := _root_.abs_one
  have cx : ∀ t : Vec ℝ, dot (cross p t) p = 0 := fun t => by unfold dot cross; ring
  have low : ∀ x y k : ℝ, |k| ≤ 13 / 1000 → 577 / 1000 * r ≤ |x| → |y| ≤ |x| → 561 / 1000 * r ≤ |y * k - x * 1| := by
    intro x y k hk hx hy
    have m1 := mul_le_mul hy hk (abs_nonneg k) (abs_nonneg x)
    rw [← abs_mul] at m1
    have := abs_sub_abs_le_abs_sub (x * 1) (y * k)
    rw [abs_sub_comm, mul_one] at this
    rw [mul_one]
    linarith
  have low' : ∀ x y k : ℝ, |k| ≤ 13 / 1000 → 577 / 1000 * r ≤ |x| → |y| ≤ |x| → 561 / 1000 * r ≤ |x * 1 - y * k| := by
    intro x y k hk hx hy
    rw [abs_sub_comm]
    exact low x y k hk hx hy
  unfold Vec.orthoDir
  generalize hg : Vec.largestComponent p = ax at *
  cases ax <;> simp only [comp] at hX hY hZ ⊢
  · have L := lin p.x p.y p.z hY.1 hZ.1 rfl
    refine fin (cross p ⟨a, b, 1⟩) _ ?_ ?_ ?_ (cx _) ?_ ?_ ?_ (Or.inr (Or.inl ?_))
    · exact ortho_comp h r0 r1 ly lz (by linarith) (by linarith) (by linarith)
    · exact ortho_comp h r0 r1 lz lx (by linarith) (by linarith) (by linarith)
    · exact ortho_comp h r0 r1 lx ly (by linarith) (by linarith) (by linarith)
    · exact up _ _ _ _ ly lz (by linarith)
    · exact up _ _ _ _ lz lx (by linarith)
    · exact up _ _ _ _ lx ly (by linarith)
    · exact low p.x p.z a ha L hZ.1
  · have L := lin p.y p.x p.z hX.1 hZ.1 (by unfold dot; ring)
    refine fin (cross p ⟨1, b, c⟩) _ ?_ ?_ ?_ (cx _) ?_ ?_ ?_ (Or.inr (Or.inr ?_))
    · exact ortho_comp h r0 r1 ly lz (by linarith) (by linarith) (by linarith)
    · exact ortho_comp h r0 r1 lz lx (by linarith) (by linarith) (by linarith)
    · exact ortho_comp h r0 r1 lx ly (by linarith) (by linarith) (by linarith)
    · exact up _ _ _ _ ly lz (by linarith)
    · exact up _ _ _ _ lz lx (by linarith)
    · exact up _ _ _ _ lx ly (by linarith)
    · exact low p.y p.x b hb L hX.1
  · have L := lin p.z p.x p.y hX.1 hY.1 (by unfold dot; ring)
    refine fin (cross p ⟨a, 1, c⟩) _ ?_ ?_ ?_ (cx _) ?_ ?_ ?_ (Or.inl ?_)
    · exact ortho_comp h r0 r1 ly lz (by linarith) (by linarith) (by linarith)
    · exact ortho_comp h r0 r1 lz lx (by linarith) (by linarith) (by linarith)
    · exact ortho_comp h r0 r1 lx ly (by linarith) (by linarith) (by linarith)
    · exact up _ _ _ _ ly lz (by linarith)
    · exact up _ _ _ _ lz lx (by linarith)
    · exact up _ _ _ _ lx ly (by linarith)
    · exact low p.z p.y c hc L hY.1

/-- `ortho`: orthogonal and of unit length, up to rounding. -/
theorem ortho_gen {fl : ℝ → ℝ} (h : Rounding fl) {p : Vec ℝ} {r : ℝ} (r0 : 1 / 2 ^ 390 ≤ r) (r1 : r ≤ 2 ^ 390) (hr : r ^ 2 = dot p p) :
    |dot (Vec.ortho fl Real.sqrt p) p| ≤ 16 * eps53 * r ∧ |dot (Vec.ortho fl Real.sqrt p) (Vec.ortho fl Real.sqrt p) - 1| ≤ 105 / 10 * eps53 := by
  have e0 := eps53_pos
  have e1 := eps53_le
  have n0 := eta75_pos
  have n1 := eta75_tiny
  have rp : 0 < r := lt_of_lt_of_le (by positivity) r0
  obtain ⟨s, s0, hs, s1, s2, hp⟩ := ortho_cross h (a := fl (12 / 1000)) (b := fl (53 / 10000)) (c := fl (457 / 100000)) r0 r1 hr
    (ortho_const h (by norm_num) (by norm_num)) (ortho_const h (by norm_num) (by norm_num)) (ortho_const h (by norm_num) (by norm_num))
  unfold Vec.ortho
  generalize Vec.cross fl p (Vec.orthoDir (fl (12 / 1000)) (fl (53 / 10000)) (fl (457 / 100000)) p) = k at *
  have sp : 0 < s := by linarith
  have l0 : (1 : ℝ) / 2 ^ 400 ≤ s := by
    have k : (1 : ℝ) / 2 ^ 400 = 1 / 2 ^ 390 * (1 / 2 ^ 10) := by rw [one_div_mul_one_div, ← pow_add]
    rw [k]
    have m := mul_le_mul r0 (by norm_num : (1 : ℝ) / 2 ^ 10 ≤ 56 / 100) (by positivity) rp.le
    rw [mul_comm r] at m
    exact m.trans s1
  have l1 : s ≤ 2 ^ 400 := by
    have k : (2 : ℝ) ^ 400 = 2 ^ 390 * 2 ^ 10 := by rw [← pow_add]
    rw [k]
    have m := mul_le_mul r1 (by norm_num : (3 : ℝ) ≤ 2 ^ 10) (by norm_num) (by positivity)
    rw [mul_comm r] at m
    exact s2.trans m
  refine ⟨?_, normalize_len h l0 l1 hs⟩
  obtain ⟨a, b, c⟩ := normalize_gen h l0 l1 hs
  generalize Vec.normalize fl Real.sqrt k = w at *
  obtain ⟨c1, c2, c3⟩ := comp_le sp.le hs.ge
  have cm : ∀ x : ℝ, |x| ≤ s → 5 * eps53 * (|x| / s) + eta75 ≤ 51 / 10 * eps53 := by
    intro x hx
    have : |x| / s ≤ 1 := (div_le_one sp).2 hx
    have := mul_le_mul_of_nonneg_left this e0.le
    linarith
  have d := dot_small (d := ⟨w.x - k.x / s, w.y - k.y / s, w.z - k.z / s⟩) (v := p) (k := 51 / 10 * eps53) (by positivity) rp.le hr.ge
    (a.trans (cm _ c1)) (b.trans (cm _ c2)) (c.trans (cm _ c3))
  have e : dot (⟨w.x - k.x / s, w.y - k.y / s, w.z - k.z / s⟩ : Vec ℝ) p = dot w p - dot k p / s := by unfold dot; ring
  rw [e] at d
  have f : |dot k p / s| ≤ 7 * eps53 * r := by
    rw [abs_div, abs_of_pos sp, div_le_iff₀ sp]
    have := mul_le_mul_of_nonneg_left s1 (by positivity : 0 ≤ 7 * eps53 * r)
    have := mul_nonneg e0.le (sq_nonneg r)
    linarith [show 7 * eps53 * r * (56 / 100 * r) = 392 / 100 * (eps53 * r ^ 2) by ring]
  have g := abs_add_le (dot w p - dot k p / s) (dot k p / s)
  rw [sub_add_cancel] at g
  have := mul_nonneg e0.le rp.le
  linarith

end Verif
