import Verif.Model.R2Norm
import Verif.Proofs.VecRound
import Verif.Proofs.RNE

/-!
# C125: norms of plane points
-/

namespace Verif
open Spec

namespace Spec

/-- The length of a plane vector. -/
noncomputable def length2 (p : R2.Point ℝ) : ℝ := Real.sqrt (p.x ^ 2 + p.y ^ 2)

/-- A `hypot` with an error of at most one part in `2^52`. -/
def NearHypot (hypot : ℝ → ℝ → ℝ) : Prop := ∀ x y, |hypot x y - Real.sqrt (x ^ 2 + y ^ 2)| ≤ Real.sqrt (x ^ 2 + y ^ 2) / 2 ^ 52

end Spec

theorem length2_sq (p : R2.Point ℝ) : length2 p ^ 2 = p.x ^ 2 + p.y ^ 2 := Real.sq_sqrt (by positivity)

theorem length2_zero {p : R2.Point ℝ} : length2 p = 0 ↔ p.x = 0 ∧ p.y = 0 := by
  have h := length2_sq p
  constructor
  · intro e
    rw [e] at h
    constructor <;> nlinarith [sq_nonneg p.x, sq_nonneg p.y]
  · rintro ⟨a, b⟩
    unfold length2
    rw [a, b]
    norm_num

/-- **C125.** In exact arithmetic `normalize` keeps the direction and gives length 1, except that the origin is not changed. -/
theorem c125_normalize_exact (p : R2.Point ℝ) :
    (p.x = 0 ∧ p.y = 0 → p.normalize _root_.id (fun x y => Real.sqrt (x ^ 2 + y ^ 2)) = p) ∧
    (¬ (p.x = 0 ∧ p.y = 0) → length2 (p.normalize _root_.id (fun x y => Real.sqrt (x ^ 2 + y ^ 2))) = 1 ∧
      ∃ t, 0 < t ∧ p.normalize _root_.id (fun x y => Real.sqrt (x ^ 2 + y ^ 2)) = ⟨t * p.x, t * p.y⟩) := by
  unfold R2.Point.normalize
  refine ⟨fun h => if_pos h, fun h => ?_⟩
  rw [if_neg h]
  have r0 : 0 ≤ length2 p := Real.sqrt_nonneg _
  have rp : 0 < length2 p := lt_of_le_of_ne r0 (fun e => h (length2_zero.1 e.symm))
  have hs := length2_sq p
  have e : p.norm (fun x y => Real.sqrt (x ^ 2 + y ^ 2)) = length2 p := rfl
  rw [e]
  generalize length2 p = r at *
  constructor
  · unfold length2 R2.Point.smul
    simp only [_root_.id]
    rw [show (p.x * (1 / r)) ^ 2 + (p.y * (1 / r)) ^ 2 = 1 by
      rw [mul_pow, mul_pow, ← add_mul, ← hs]
      field_simp]
    exact Real.sqrt_one
  · refine ⟨1 / r, by positivity, ?_⟩
    unfold R2.Point.smul
    simp only [_root_.id, mul_comm]

/-- **C125.** `normalize` with rounding: each coordinate of the unit vector has a relative error of at most five parts in `2^53`, for points
of length between `2^-400` and `2^400`. -/
theorem c125_normalize {fl : ℝ → ℝ} {hypot : ℝ → ℝ → ℝ} (h : Rounding fl) (hh : NearHypot hypot) {p : R2.Point ℝ} (r0 : 1 / 2 ^ 400 ≤ length2 p)
    (r1 : length2 p ≤ 2 ^ 400) :
    |(p.normalize fl hypot).x - p.x / length2 p| ≤ 5 / 2 ^ 53 * (|p.x| / length2 p) + 1 / 2 ^ 1075 ∧
    |(p.normalize fl hypot).y - p.y / length2 p| ≤ 5 / 2 ^ 53 * (|p.y| / length2 p) + 1 / 2 ^ 1075 := by
  have e0 := eps53_pos
  have e1 := eps53_le
  have hs := length2_sq p
  have a : |p.norm hypot - length2 p| ≤ 254 / 100 * eps53 * length2 p := by
    have t := hh p.x p.y
    have rr : 0 ≤ length2 p := Real.sqrt_nonneg _
    have e : length2 p / 2 ^ 52 = 2 * eps53 * length2 p := by unfold eps53; ring
    have t : |p.norm hypot - length2 p| ≤ length2 p / 2 ^ 52 := t
    rw [e] at t
    have := mul_nonneg e0.le rr
    linarith
  have rp : 0 < length2 p := lt_of_lt_of_le (by positivity) r0
  have hz : ¬ (p.x = 0 ∧ p.y = 0) := fun hz => rp.ne' (length2_zero.2 hz)
  have c53 : (5 : ℝ) / 2 ^ 53 = 5 * eps53 := by unfold eps53; ring
  have c75 : (1 : ℝ) / 2 ^ 1075 = eta75 := rfl
  rw [c53, c75]
  unfold R2.Point.normalize
  rw [if_neg hz]
  simp only [R2.Point.smul]
  generalize length2 p = r at *
  generalize p.norm hypot = n at *
  have b := inv_rel rp (k := 254 / 100 * eps53) (by linarith) a
  have i0 : (1 : ℝ) / 2 ^ 400 ≤ 1 / r := one_div_le_one_div_of_le rp r1
  have i1 : 1 / r ≤ 2 ^ 400 := by
    rw [div_le_iff₀ rp]
    rwa [div_le_iff₀' (by positivity)] at r0
  have ip : 0 < 1 / r := by positivity
  have ie := mul_le_mul_of_nonneg_left e1 ip.le
  have n2 : eta75 ≤ 1 / r * eps53 / 1000 := by
    refine eta75_le.trans ?_
    rw [mul_div_assoc]
    refine mul_le_mul_of_nonneg_right (le_trans ?_ i0) (by positivity)
    exact one_div_le_one_div_of_le (by positivity) (pow_le_pow_right₀ (by norm_num) (by norm_num))
  have d := abs_sub_abs_le_abs_sub (1 / n) (1 / r)
  rw [abs_of_pos ip] at d
  have f := fl_gen h (x := 1 / n) (by
    have : (2 : ℝ) ^ 400 * 2 ≤ big1000 := by rw [← pow_succ]; exact pow_le_pow_right₀ (by norm_num) (by norm_num)
    replace this := (mul_le_mul_of_nonneg_right i1 (by norm_num : (0 : ℝ) ≤ 2)).trans this
    clear r0 r1 i0 i1 c53 c75
    linarith) n2
  clear r0 r1 i0 i1 c53 c75
  have g := mul_le_mul_of_nonneg_right (by linarith : |1 / n| ≤ 1001 / 1000 * (1 / r)) e0.le
  have i := abs_add_le (fl (1 / n) - 1 / n) (1 / n - 1 / r)
  rw [sub_add_sub_cancel] at i
  have m := mul_nonneg e0.le ip.le
  have key : |fl (1 / n) - 1 / r| ≤ 356 / 100 * eps53 * (1 / r) := by linarith
  have comp : ∀ x : ℝ, x ^ 2 ≤ r ^ 2 → |x| * (1 / r) ≤ 1 := by
    intro x hx
    rw [mul_one_div, div_le_one rp]
    exact abs_le_of_sq_le_sq hx rp.le
  have dv : ∀ x : ℝ, x / r = x * (1 / r) := fun x => (mul_one_div x r).symm
  rw [dv p.x, dv p.y, dv |p.x|, dv |p.y|]
  have x0 := sq_nonneg p.x
  have y0 := sq_nonneg p.y
  exact ⟨scale_gen h ip.le (comp _ (by linarith)) key, scale_gen h ip.le (comp _ (by linarith)) key⟩

-- the point (3, 4), with doubles and with the exact `hypot`
example : NearHypot (fun x y => Real.sqrt (x ^ 2 + y ^ 2)) ∧
    |((⟨3, 4⟩ : R2.Point ℝ).normalize rne (fun x y => Real.sqrt (x ^ 2 + y ^ 2))).x - 3 / 5| ≤ 5 / 2 ^ 53 * (3 / 5) + 1 / 2 ^ 1075 := by
  have hh : NearHypot (fun x y => Real.sqrt (x ^ 2 + y ^ 2)) := by
    intro x y
    rw [sub_self, abs_zero]
    positivity
  have l : length2 ⟨3, 4⟩ = 5 := by
    unfold length2
    rw [show (3 : ℝ) ^ 2 + 4 ^ 2 = 5 ^ 2 by norm_num]
    exact Real.sqrt_sq (by norm_num)
  refine ⟨hh, ?_⟩
  have r0 : (1 : ℝ) / 2 ^ 400 ≤ length2 ⟨3, 4⟩ := by
    rw [l]
    exact le_trans (by rw [div_le_one (by positivity)]; exact one_le_pow₀ (by norm_num)) (by norm_num : (1 : ℝ) ≤ 5)
  have r1 : length2 ⟨3, 4⟩ ≤ (2 : ℝ) ^ 400 := by
    rw [l]
    exact le_trans (by norm_num : (5 : ℝ) ≤ 2 ^ 3) (pow_le_pow_right₀ (by norm_num) (by norm_num))
  have := (c125_normalize rounding_rne hh r0 r1).1
  rw [l] at this
  rwa [abs_of_pos (by norm_num : (0 : ℝ) < 3)] at this

end Verif
