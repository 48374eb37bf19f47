import Verif.Proofs.VecRound
import Verif.Properties.FaceRound
import Verif.Properties.Crossing

/-!
# C117: vectors with rounding

`normalize`, `ortho`, `frame`, `to_frame`, `from_frame` and `Point::cross` with the rounding of doubles: how long and how orthogonal the
results are, for all vectors that do not underflow or overflow, and witnesses that these limits are needed.
-/

namespace Verif
open Spec

theorem near_of {a b : ℝ} {n : ℕ} {k : ℝ} (h : |a - b| ≤ k * eps53) (hk : k ≤ 2 ^ n) (hn : n ≤ 53) : |a - b| ≤ 1 / 2 ^ (53 - n) := by
  refine h.trans ((mul_le_mul_of_nonneg_right hk eps53_pos.le).trans (le_of_eq ?_))
  unfold eps53
  rw [mul_one_div, div_eq_div_iff (by positivity) (by positivity), one_mul, ← pow_add, Nat.add_sub_cancel' hn]

/-- **C117.** `normalize` with rounding: for every vector whose length is between `2^-400` and `2^400` each component of the result has a
relative error of at most five units of `2^-53` (and an absolute error of `2^-1075` where it underflows), its squared length differs from 1
by at most `2^-49`, and `is_unit` accepts it. -/
theorem c117_normalize {fl : ℝ → ℝ} (h : Rounding fl) {v : Vec ℝ} {r eps : ℝ} (r0 : 1 / 2 ^ 400 ≤ r) (r1 : r ≤ 2 ^ 400) (hr : r ^ 2 = dot v v)
    (he : 1 / 2 ^ 49 ≤ eps) :
    (∀ ax, |comp (v.normalize fl Real.sqrt) ax - comp v ax / r| ≤ 5 / 2 ^ 53 * |comp v ax / r| + 1 / 2 ^ 1075) ∧
    |dot (v.normalize fl Real.sqrt) (v.normalize fl Real.sqrt) - 1| ≤ 1 / 2 ^ 49 ∧ (v.normalize fl Real.sqrt).isUnit fl eps = true := by
  have rp : 0 < r := lt_of_lt_of_le (by positivity) r0
  have e0 := eps53_pos
  have e1 := eps53_le
  have hu := normalize_len h r0 r1 hr
  obtain ⟨a, b, c⟩ := normalize_gen h r0 r1 hr
  have e : ∀ x : ℝ, 5 * eps53 * (|x| / r) + eta75 = 5 / 2 ^ 53 * |x / r| + 1 / 2 ^ 1075 := by
    intro x
    unfold eps53 eta75
    rw [abs_div, abs_of_pos rp]
    ring
  rw [e] at a b c
  refine ⟨?_, near_of (n := 4) hu (by norm_num) (by norm_num), isUnit_gen h hu (by linarith) ?_⟩
  · intro ax; cases ax <;> assumption
  · refine le_trans ?_ he
    have : (1 : ℝ) / 2 ^ 49 = 16 * eps53 := by unfold eps53; norm_num
    linarith

/-- **C117.** `from_coords` with rounding: for coordinates, not all of them tiny or huge, the result is a unit vector for the code. -/
theorem c117_fromCoords {fl : ℝ → ℝ} (h : Rounding fl) {v : Vec ℝ} {r eps : ℝ} (r0 : 1 / 2 ^ 400 ≤ r) (r1 : r ≤ 2 ^ 400) (hr : r ^ 2 = dot v v)
    (he : 1 / 2 ^ 49 ≤ eps) :
    |dot (Vec.fromCoords fl Real.sqrt v.x v.y v.z) (Vec.fromCoords fl Real.sqrt v.x v.y v.z) - 1| ≤ 1 / 2 ^ 49 ∧
    (Vec.fromCoords fl Real.sqrt v.x v.y v.z).isUnit fl eps = true ∧
    (∀ ax, |comp (Vec.fromCoords fl Real.sqrt v.x v.y v.z) ax - comp v ax / r| ≤ 1 / 2 ^ 50) := by
  obtain ⟨a, b, c⟩ := c117_normalize h r0 r1 hr he
  have rp : 0 < r := lt_of_lt_of_le (by positivity) r0
  have hz : ¬ (v.x = 0 ∧ v.y = 0 ∧ v.z = 0) := by
    rintro ⟨z1, z2, z3⟩
    unfold dot at hr
    rw [z1, z2, z3] at hr
    have := pow_pos rp 2
    linarith
  have e : Vec.fromCoords fl Real.sqrt v.x v.y v.z = v.normalize fl Real.sqrt := by
    unfold Vec.fromCoords
    rw [if_neg hz]
  rw [e]
  refine ⟨b, c, fun ax => (a ax).trans ?_⟩
  obtain ⟨l1, l2, l3⟩ := comp_le rp.le hr.ge
  have hc : |comp v ax / r| ≤ 1 := by
    rw [abs_div, abs_of_pos rp, div_le_one rp]
    cases ax <;> assumption
  have n1 := eta75_tiny
  have e0 := eps53_pos
  have : (5 : ℝ) / 2 ^ 53 = 5 * eps53 := by unfold eps53; norm_num
  rw [this]
  have m := mul_le_mul_of_nonneg_left hc (mul_nonneg (by norm_num) e0.le : 0 ≤ 5 * eps53)
  have : (1 : ℝ) / 2 ^ 50 = 8 * eps53 := by unfold eps53; norm_num
  unfold eta75 at n1
  linarith

/-- **C117.** The lower limit is needed: the computed norm of a non-zero vector can be zero. Then `normalize` divides by zero, and
`from_coords` does not return a point, although it is documented to return the origin for coordinates that cannot be normalized. -/
theorem c117_underflow : VecF64 (⟨1 / 2 ^ 600, 1 / 2 ^ 600, 0⟩ : Vec ℝ) ∧ ¬ IsZero (⟨1 / 2 ^ 600, 1 / 2 ^ 600, 0⟩ : Vec ℝ) ∧
    Vec.norm rne Real.sqrt (⟨1 / 2 ^ 600, 1 / 2 ^ 600, 0⟩ : Vec ℝ) = 0 := by
  have e : ∀ a b : ℕ, (1 : ℝ) / 2 ^ a * (1 / 2 ^ b) = 2 ^ (-((a : ℤ) + b)) := by
    intro a b
    rw [one_div_mul_one_div, ← pow_add, zpow_neg, one_div, ← Nat.cast_add, zpow_natCast]
  have t : rne ((1 : ℝ) / 2 ^ 600 * (1 / 2 ^ 600)) = 0 := by
    rw [e]
    exact rne_tiny (two_zpow_pos _) (zpow_lt_zpow_right₀ (by norm_num) (by norm_num))
  refine ⟨?_, ?_, ?_⟩
  · have f : IsF64 ((1 : ℝ) / 2 ^ 600) := by
      refine rne_exact (m := 1) (k := -600) ?_ (by norm_num) (by norm_num)
      rw [zpow_neg, Int.cast_one, one_mul, one_div]
      rfl
    exact ⟨f, f, rne_zero⟩
  · rintro ⟨z, -⟩
    have : (0 : ℝ) < 1 / 2 ^ 600 := by positivity
    exact this.ne' z
  · unfold Vec.norm Vec.norm2 Vec.dot
    simp only
    rw [t, mul_zero, rne_zero, add_zero, add_zero, rne_zero, rne_zero, Real.sqrt_zero, rne_zero]

/-- **C117.** `ortho` with rounding: for every vector whose length is between `2^-390` and `2^390` the result is orthogonal to it up to
`2^-49`, and a unit vector. -/
theorem c117_ortho {fl : ℝ → ℝ} (h : Rounding fl) {p : Vec ℝ} {r eps : ℝ} (r0 : 1 / 2 ^ 390 ≤ r) (r1 : r ≤ 2 ^ 390) (hr : r ^ 2 = dot p p)
    (he : 1 / 2 ^ 49 ≤ eps) :
    |dot (Vec.ortho fl Real.sqrt p) p| ≤ 1 / 2 ^ 49 * r ∧ |dot (Vec.ortho fl Real.sqrt p) (Vec.ortho fl Real.sqrt p) - 1| ≤ 1 / 2 ^ 49 ∧
    (Vec.ortho fl Real.sqrt p).isUnit fl eps = true := by
  have e0 := eps53_pos
  have e1 := eps53_le
  obtain ⟨a, b⟩ := ortho_gen h r0 r1 hr
  have e : (1 : ℝ) / 2 ^ 49 = 16 * eps53 := by unfold eps53; norm_num
  rw [e] at he ⊢
  exact ⟨a, by linarith, isUnit_gen h b (by linarith) (by linarith)⟩

/-- The scalar products of three vectors are those of an orthonormal basis, up to `δ`. -/
def Spec.Orthonormal (a b c : Vec ℝ) (δ : ℝ) : Prop :=
  |dot a a - 1| ≤ δ ∧ |dot b b - 1| ≤ δ ∧ |dot c c - 1| ≤ δ ∧ |dot a b| ≤ δ ∧ |dot a c| ≤ δ ∧ |dot b c| ≤ δ

theorem cross_sq (a b : Vec ℝ) : dot (cross a b) (cross a b) = dot a a * dot b b - dot a b ^ 2 := by unfold dot cross; ring

theorem frame_gen {fl : ℝ → ℝ} (h : Rounding fl) {p : Vec ℝ} (hp : |dot p p - 1| ≤ 16 * eps53) :
    Orthonormal (Vec.frame fl Real.sqrt p).c0 (Vec.frame fl Real.sqrt p).c1 p (64 * eps53) := by
  have e0 := eps53_pos
  have e1 := eps53_le
  have ee : eps53 * eps53 ≤ 1 / 10 ^ 15 * eps53 := mul_le_mul_of_nonneg_right e1 e0.le
  have hp' := abs_le.1 hp
  have p0 : 0 ≤ dot p p := by linarith
  have sq := Real.sq_sqrt p0
  have s0 := Real.sqrt_nonneg (dot p p)
  have s1 : Real.sqrt (dot p p) ≤ 1001 / 1000 := Real.sqrt_le_iff.2 ⟨by norm_num, by norm_num; linarith⟩
  have s2 : 999 / 1000 ≤ Real.sqrt (dot p p) := Real.le_sqrt_of_sq_le (by norm_num; linarith)
  have B : (1 : ℝ) / 2 ^ 390 ≤ 999 / 1000 := by
    refine le_trans (one_div_le_one_div_of_le (by positivity) (pow_le_pow_right₀ (by norm_num) (by norm_num : 1 ≤ 390))) (by norm_num)
  have C : (1001 : ℝ) / 1000 ≤ 2 ^ 390 := by
    refine le_trans (by norm_num : (1001 : ℝ) / 1000 ≤ 2 ^ 1) (pow_le_pow_right₀ (by norm_num) (by norm_num))
  obtain ⟨o1, o2⟩ := ortho_gen h (B.trans s2) (s1.trans C) sq
  unfold Vec.frame
  simp only
  generalize Vec.ortho fl Real.sqrt p = w at *
  have o3 : |dot w p| ≤ 17 * eps53 := by
    have := mul_le_mul_of_nonneg_left s1 (by positivity : 0 ≤ 16 * eps53)
    linarith
  have o2' := abs_le.1 o2
  -- the error of the cross product
  have am : ∀ a b c d : ℝ, a * a + b * b ≤ 11 / 10 → c * c + d * d ≤ 11 / 10 → |a * d| + |b * c| ≤ 2 := by
    intro a b c d h1 h2
    have k1 : |a * d| ≤ (a * a + d * d) / 2 := by rw [abs_le]; constructor <;> nlinarith [sq_nonneg (a - d), sq_nonneg (a + d)]
    have k2 : |b * c| ≤ (b * b + c * c) / 2 := by rw [abs_le]; constructor <;> nlinarith [sq_nonneg (b - c), sq_nonneg (b + c)]
    linarith
  have dw : dot w w = w.x * w.x + w.y * w.y + w.z * w.z := rfl
  have dp : dot p p = p.x * p.x + p.y * p.y + p.z * p.z := rfl
  have wx := mul_self_nonneg w.x
  have wy := mul_self_nonneg w.y
  have wz := mul_self_nonneg w.z
  have px := mul_self_nonneg p.x
  have py := mul_self_nonneg p.y
  have pz := mul_self_nonneg p.z
  have x1 := cross_err h (am w.y w.z p.y p.z (by linarith) (by linarith))
  have x2 := cross_err h (am w.z w.x p.z p.x (by linarith) (by linarith))
  have x3 := cross_err h (am w.x w.y p.x p.y (by linarith) (by linarith))
  have hg : ∃ d : Vec ℝ, Vec.cross fl w p = ⟨(cross w p).x + d.x, (cross w p).y + d.y, (cross w p).z + d.z⟩ ∧ |d.x| ≤ 5 * eps53 ∧ |d.y| ≤ 5 * eps53 ∧
      |d.z| ≤ 5 * eps53 := by
    refine ⟨⟨(Vec.cross fl w p).x - (cross w p).x, (Vec.cross fl w p).y - (cross w p).y, (Vec.cross fl w p).z - (cross w p).z⟩, ?_, x1, x2, x3⟩
    simp only [add_sub_cancel]
  obtain ⟨d, hd, d1, d2, d3⟩ := hg
  rw [hd]
  have c1 : dot (cross w p) w = 0 := by unfold dot cross; ring
  have c2 : dot (cross w p) p = 0 := by unfold dot cross; ring
  have c3 := cross_sq w p
  have w1 : dot w w ≤ (1001 / 1000) ^ 2 := by norm_num; linarith
  have p1 : dot p p ≤ (1001 / 1000) ^ 2 := by norm_num; linarith
  have t1 := dot_small (v := w) (k := 5 * eps53) (by positivity) (by norm_num) w1 d1 d2 d3
  have t2 := dot_small (v := p) (k := 5 * eps53) (by positivity) (by norm_num) p1 d1 d2 d3
  have hm : |dot (cross w p) (cross w p) - 1| ≤ 27 * eps53 := by
    rw [c3]
    have q1 : |(dot w w - 1) * (dot p p - 1)| ≤ 105 / 10 * eps53 * (16 * eps53) := by
      rw [abs_mul]; exact mul_le_mul o2 hp (abs_nonneg _) (by positivity)
    have q2 : dot w p ^ 2 ≤ (17 * eps53) ^ 2 := by rw [← sq_abs]; exact pow_le_pow_left₀ (abs_nonneg _) o3 2
    have q3 := sq_nonneg (dot w p)
    rw [abs_le] at q1 ⊢
    have e2 : dot w w * dot p p - dot w p ^ 2 - 1 = (dot w w - 1) * (dot p p - 1) + (dot w w - 1) + (dot p p - 1) - dot w p ^ 2 := by ring
    rw [e2]
    constructor <;> linarith [show (17 * eps53) ^ 2 = 289 * (eps53 * eps53) by ring]
  have m1 : dot (cross w p) (cross w p) ≤ (1001 / 1000) ^ 2 := by have := (abs_le.1 hm).2; norm_num; linarith
  have t3 := dot_small (v := cross w p) (k := 5 * eps53) (by positivity) (by norm_num) m1 d1 d2 d3
  have t4 : |dot d d| ≤ 75 * (eps53 * eps53) := by
    have q : ∀ x : ℝ, |x| ≤ 5 * eps53 → x * x ≤ 25 * (eps53 * eps53) := by
      intro x hx
      have := mul_self_le_mul_self (abs_nonneg x) hx
      rw [abs_mul_abs_self] at this
      linarith
    unfold dot
    rw [abs_of_nonneg (by have := mul_self_nonneg d.x; have := mul_self_nonneg d.y; have := mul_self_nonneg d.z; linarith)]
    linarith [q _ d1, q _ d2, q _ d3]
  generalize cross w p = g at *
  have g1 : dot (⟨g.x + d.x, g.y + d.y, g.z + d.z⟩ : Vec ℝ) ⟨g.x + d.x, g.y + d.y, g.z + d.z⟩ = dot g g + 2 * dot d g + dot d d := by unfold dot; ring
  have g2 : dot (⟨g.x + d.x, g.y + d.y, g.z + d.z⟩ : Vec ℝ) w = dot d w := by
    rw [show dot (⟨g.x + d.x, g.y + d.y, g.z + d.z⟩ : Vec ℝ) w = dot g w + dot d w by unfold dot; ring, c1, zero_add]
  have g3 : dot (⟨g.x + d.x, g.y + d.y, g.z + d.z⟩ : Vec ℝ) p = dot d p := by
    rw [show dot (⟨g.x + d.x, g.y + d.y, g.z + d.z⟩ : Vec ℝ) p = dot g p + dot d p by unfold dot; ring, c2, zero_add]
  refine ⟨?_, by linarith, by linarith, ?_, ?_, by linarith⟩
  · rw [g1]
    have a1 := abs_add_three (dot g g - 1) (2 * dot d g) (dot d d)
    rw [abs_mul, abs_two] at a1
    rw [show dot g g + 2 * dot d g + dot d d - 1 = dot g g - 1 + 2 * dot d g + dot d d by ring]
    linarith
  · rw [g2]; linarith
  · rw [g3]; linarith

/-- **C117.** The frame of a unit vector is orthonormal up to `2^-47` with rounding, and its third axis is the vector. -/
theorem c117_frame {fl : ℝ → ℝ} (h : Rounding fl) {p : Vec ℝ} (hp : |dot p p - 1| ≤ 1 / 2 ^ 49) :
    (Vec.frame fl Real.sqrt p).c2 = p ∧
    Orthonormal (Vec.frame fl Real.sqrt p).c0 (Vec.frame fl Real.sqrt p).c1 (Vec.frame fl Real.sqrt p).c2 (1 / 2 ^ 47) := by
  have e : (1 : ℝ) / 2 ^ 47 = 64 * eps53 := by unfold eps53; norm_num
  have e' : (1 : ℝ) / 2 ^ 49 = 16 * eps53 := by unfold eps53; norm_num
  rw [e'] at hp
  rw [e]
  exact ⟨rfl, frame_gen h hp⟩

/-- Rows instead of columns: the sum of the squares of the deviations from an orthonormal basis is the same. -/
theorem rows_eq (a b c : Vec ℝ) :
    (a.x * a.x + b.x * b.x + c.x * c.x - 1) ^ 2 + (a.y * a.y + b.y * b.y + c.y * c.y - 1) ^ 2 + (a.z * a.z + b.z * b.z + c.z * c.z - 1) ^ 2 +
      2 * (a.x * a.y + b.x * b.y + c.x * c.y) ^ 2 + 2 * (a.x * a.z + b.x * b.z + c.x * c.z) ^ 2 + 2 * (a.y * a.z + b.y * b.z + c.y * c.z) ^ 2 =
    (dot a a - 1) ^ 2 + (dot b b - 1) ^ 2 + (dot c c - 1) ^ 2 + 2 * dot a b ^ 2 + 2 * dot a c ^ 2 + 2 * dot b c ^ 2 := by
  unfold dot; ring

theorem rows_gen {a b c : Vec ℝ} {δ : ℝ} (δ0 : 0 ≤ δ) (h : Orthonormal a b c δ) :
    Orthonormal ⟨a.x, b.x, c.x⟩ ⟨a.y, b.y, c.y⟩ ⟨a.z, b.z, c.z⟩ (3 * δ) := by
  obtain ⟨h1, h2, h3, h4, h5, h6⟩ := h
  have q : ∀ x : ℝ, |x| ≤ δ → x ^ 2 ≤ δ ^ 2 := fun x hx => by rw [← sq_abs]; exact pow_le_pow_left₀ (abs_nonneg _) hx 2
  have e := rows_eq a b c
  have q1 := q _ h1
  have q2 := q _ h2
  have q3 := q _ h3
  have q4 := q _ h4
  have q5 := q _ h5
  have q6 := q _ h6
  have n1 := sq_nonneg (a.x * a.x + b.x * b.x + c.x * c.x - 1)
  have n2 := sq_nonneg (a.y * a.y + b.y * b.y + c.y * c.y - 1)
  have n3 := sq_nonneg (a.z * a.z + b.z * b.z + c.z * c.z - 1)
  have n4 := sq_nonneg (a.x * a.y + b.x * b.y + c.x * c.y)
  have n5 := sq_nonneg (a.x * a.z + b.x * b.z + c.x * c.z)
  have n6 := sq_nonneg (a.y * a.z + b.y * b.z + c.y * c.z)
  refine ⟨?_, ?_, ?_, ?_, ?_, ?_⟩ <;> refine abs_le_of_sq_le_sq ?_ (by positivity) <;> rw [mul_pow] <;> simp only [dot] <;> linarith

/-- The product of an orthonormal matrix, given by its rows, and a vector, followed by that of the transposed one. -/
theorem matrix_gen {fl : ℝ → ℝ} (h : Rounding fl) {a b c a' b' c' : Vec ℝ} {δ : ℝ} (d0 : 0 ≤ δ) (d1 : δ ≤ 1 / 1000) (ho : Orthonormal a b c δ)
    (ho' : Orthonormal a' b' c' δ) (ea : a' = ⟨a.x, b.x, c.x⟩) (eb : b' = ⟨a.y, b.y, c.y⟩) (ec : c' = ⟨a.z, b.z, c.z⟩) {q : Vec ℝ}
    (hq : ∀ ax, |comp q ax| ≤ 1) :
    ∀ ax, |comp (⟨Vec.dot fl a ⟨Vec.dot fl a' q, Vec.dot fl b' q, Vec.dot fl c' q⟩, Vec.dot fl b ⟨Vec.dot fl a' q, Vec.dot fl b' q, Vec.dot fl c' q⟩,
      Vec.dot fl c ⟨Vec.dot fl a' q, Vec.dot fl b' q, Vec.dot fl c' q⟩⟩ : Vec ℝ) ax - comp q ax| ≤ 3 * δ + 70 * eps53 := by
  have e0 := eps53_pos
  have e1 := eps53_le
  have t1 := tau200_le
  have t0 := tau200_pos
  have qx : |q.x| ≤ 1 := hq .X
  have qy : |q.y| ≤ 1 := hq .Y
  have qz : |q.z| ≤ 1 := hq .Z
  obtain ⟨h1, h2, h3, h4, h5, h6⟩ := ho
  obtain ⟨h1', h2', h3', -, -, -⟩ := ho'
  have len : ∀ v : Vec ℝ, |dot v v - 1| ≤ δ → |v.x| ≤ 1001 / 1000 ∧ |v.y| ≤ 1001 / 1000 ∧ |v.z| ≤ 1001 / 1000 ∧ |v.x| + |v.y| + |v.z| ≤ 174 / 100 := by
    intro v hv
    have := (abs_le.1 hv).2
    have k : dot v v ≤ (1001 / 1000) ^ 2 := by norm_num; linarith
    obtain ⟨k1, k2, k3⟩ := comp_le (by norm_num) k
    have := abs_sum_le (by norm_num) k
    exact ⟨k1, k2, k3, by linarith⟩
  -- the first product
  have first : ∀ v : Vec ℝ, |dot v v - 1| ≤ δ → |Vec.dot fl v q - dot v q| ≤ 7 * eps53 ∧ |Vec.dot fl v q| ≤ 175 / 100 := by
    intro v hv
    obtain ⟨k1, k2, k3, k4⟩ := len v hv
    have m1 := mul_le_mul_of_nonneg_left qx (abs_nonneg v.x)
    have m2 := mul_le_mul_of_nonneg_left qy (abs_nonneg v.y)
    have m3 := mul_le_mul_of_nonneg_left qz (abs_nonneg v.z)
    have := dot_err h (P := v.x * q.x) (Q := v.y * q.y) (R := v.z * q.z) (M := 174 / 100) (by rw [abs_mul, abs_mul, abs_mul]; linarith) (by norm_num)
    have r : |Vec.dot fl v q - dot v q| ≤ 7 / 2 * eps53 * (174 / 100) + 10 * tau200 := this
    refine ⟨by linarith, ?_⟩
    have s := abs_sub_abs_le_abs_sub (Vec.dot fl v q) (dot v q)
    have s2 := abs_add_three (v.x * q.x) (v.y * q.y) (v.z * q.z)
    rw [abs_mul, abs_mul, abs_mul] at s2
    have s3 : |dot v q| ≤ |v.x| * |q.x| + |v.y| * |q.y| + |v.z| * |q.z| := s2
    linarith
  obtain ⟨f1, g1⟩ := first a' h1'
  obtain ⟨f2, g2⟩ := first b' h2'
  obtain ⟨f3, g3⟩ := first c' h3'
  generalize Vec.dot fl a' q = A at *
  generalize Vec.dot fl b' q = B at *
  generalize Vec.dot fl c' q = C at *
  -- the second product
  have second : ∀ v : Vec ℝ, |dot v v - 1| ≤ δ → |Vec.dot fl v ⟨A, B, C⟩ - (v.x * dot a' q + v.y * dot b' q + v.z * dot c' q)| ≤ 40 * eps53 := by
    intro v hv
    obtain ⟨k1, k2, k3, k4⟩ := len v hv
    have m1 := mul_le_mul_of_nonneg_left g1 (abs_nonneg v.x)
    have m2 := mul_le_mul_of_nonneg_left g2 (abs_nonneg v.y)
    have m3 := mul_le_mul_of_nonneg_left g3 (abs_nonneg v.z)
    have := dot_err h (P := v.x * A) (Q := v.y * B) (R := v.z * C) (M := 4) (by rw [abs_mul, abs_mul, abs_mul]; linarith) (by norm_num)
    have r : |Vec.dot fl v ⟨A, B, C⟩ - (v.x * A + v.y * B + v.z * C)| ≤ 7 / 2 * eps53 * 4 + 10 * tau200 := this
    have n1 := mul_le_mul_of_nonneg_left f1 (abs_nonneg v.x)
    have n2 := mul_le_mul_of_nonneg_left f2 (abs_nonneg v.y)
    have n3 := mul_le_mul_of_nonneg_left f3 (abs_nonneg v.z)
    rw [← abs_mul] at n1 n2 n3
    have s := abs_add_three (v.x * (A - dot a' q)) (v.y * (B - dot b' q)) (v.z * (C - dot c' q))
    have k5 := mul_le_mul_of_nonneg_right k4 e0.le
    have u := abs_add_le (Vec.dot fl v ⟨A, B, C⟩ - (v.x * A + v.y * B + v.z * C)) (v.x * (A - dot a' q) + v.y * (B - dot b' q) + v.z * (C - dot c' q))
    rw [show Vec.dot fl v ⟨A, B, C⟩ - (v.x * A + v.y * B + v.z * C) + (v.x * (A - dot a' q) + v.y * (B - dot b' q) + v.z * (C - dot c' q)) =
      Vec.dot fl v ⟨A, B, C⟩ - (v.x * dot a' q + v.y * dot b' q + v.z * dot c' q) by ring] at u
    linarith
  have fin : ∀ X Y x y z α β γ : ℝ, |X - Y| ≤ 40 * eps53 → Y - x = α * x + β * y + γ * z → |α| ≤ δ → |β| ≤ δ → |γ| ≤ δ → |x| ≤ 1 → |y| ≤ 1 → |z| ≤ 1 →
      |X - x| ≤ 3 * δ + 70 * eps53 := by
    intro X Y x y z α β γ k1 k2 k3 k4 k5 k6 k7 k8
    have m1 := mul_le_mul k3 k6 (abs_nonneg _) d0
    have m2 := mul_le_mul k4 k7 (abs_nonneg _) d0
    have m3 := mul_le_mul k5 k8 (abs_nonneg _) d0
    rw [← abs_mul] at m1 m2 m3
    have s := abs_add_three (α * x) (β * y) (γ * z)
    rw [← k2] at s
    have u := abs_add_le (X - Y) (Y - x)
    rw [sub_add_sub_cancel] at u
    linarith
  intro ax
  cases ax
  · refine fin _ _ q.x q.y q.z (dot a a - 1) (dot a b) (dot a c) (second a h1) ?_ h1 h4 h5 qx qy qz
    rw [ea, eb, ec]; unfold dot; ring
  · refine fin _ _ q.y q.x q.z (dot b b - 1) (dot a b) (dot b c) (second b h2) ?_ h2 h4 h6 qy qx qz
    rw [ea, eb, ec]; unfold dot; ring
  · refine fin _ _ q.z q.x q.y (dot c c - 1) (dot a c) (dot b c) (second c h3) ?_ h3 h5 h6 qz qx qy
    rw [ea, eb, ec]; unfold dot; ring

/-- **C117.** `to_frame` and `from_frame` undo each other up to `2^-43` with rounding, for the frame of a unit vector and all vectors in the unit cube. -/
theorem c117_roundtrip {fl : ℝ → ℝ} (h : Rounding fl) {p q : Vec ℝ} (hp : |dot p p - 1| ≤ 1 / 2 ^ 49) (hq : ∀ ax, |comp q ax| ≤ 1) (ax : Vec.Axis) :
    |comp (Vec.toFrame fl (Vec.frame fl Real.sqrt p) (Vec.fromFrame fl (Vec.frame fl Real.sqrt p) q)) ax - comp q ax| ≤ 1 / 2 ^ 43 ∧
    |comp (Vec.fromFrame fl (Vec.frame fl Real.sqrt p) (Vec.toFrame fl (Vec.frame fl Real.sqrt p) q)) ax - comp q ax| ≤ 1 / 2 ^ 43 := by
  have e0 := eps53_pos
  have e1 := eps53_le
  have e' : (1 : ℝ) / 2 ^ 49 = 16 * eps53 := by unfold eps53; norm_num
  rw [e'] at hp
  have o := frame_gen h hp
  have r := rows_gen (by positivity) o
  have o' : Orthonormal (Vec.frame fl Real.sqrt p).c0 (Vec.frame fl Real.sqrt p).c1 p (3 * (64 * eps53)) := by
    obtain ⟨h1, h2, h3, h4, h5, h6⟩ := o
    exact ⟨by linarith, by linarith, by linarith, by linarith, by linarith, by linarith⟩
  have e : (1 : ℝ) / 2 ^ 43 = 1024 * eps53 := by unfold eps53; norm_num
  rw [e]
  have a := matrix_gen h (by positivity) (by linarith) o' r rfl rfl rfl hq ax
  have b := matrix_gen h (by positivity) (by linarith) r o' rfl rfl rfl hq ax
  refine ⟨?_, ?_⟩
  · refine le_trans (le_of_eq ?_) (a.trans (by linarith)); rfl
  · refine le_trans (le_of_eq ?_) (b.trans (by linarith)); rfl

/-! ## `Point::cross` -/

/-- A product of a sum and a difference. -/
theorem prod_gen {fl : ℝ → ℝ} (h : Rounding fl) {a b : ℝ} (ha : |a| ≤ 4) (hb : |b| ≤ 4) :
    |fl a * fl b - a * b| ≤ 201 / 100 * eps53 * (|a| * |b|) + 9 * eta75 := by
  have e0 := eps53_pos
  have e1 := eps53_le
  have n0 := eta75_pos
  have n1 := eta75_tiny
  have a0 := abs_nonneg a
  have b0 := abs_nonneg b
  have B : (4 : ℝ) ≤ big1000 := by
    calc (4 : ℝ) = 2 ^ 2 := by norm_num
      _ ≤ big1000 := pow_le_pow_right₀ (by norm_num) (by norm_num)
  have x := fl_gen h (x := a) (by linarith) le_rfl
  have y := fl_gen h (x := b) (by linarith) le_rfl
  have e : fl a * fl b - a * b = (fl a - a) * b + a * (fl b - b) + (fl a - a) * (fl b - b) := by ring
  have s := abs_add_three ((fl a - a) * b) (a * (fl b - b)) ((fl a - a) * (fl b - b))
  rw [← e, abs_mul, abs_mul, abs_mul] at s
  have m1 := mul_le_mul_of_nonneg_right x b0
  have m2 := mul_le_mul_of_nonneg_left y a0
  have m3 := mul_le_mul x y (abs_nonneg _) (add_nonneg (mul_nonneg a0 e0.le) n0.le)
  have ab := mul_nonneg a0 b0
  have k1 := mul_le_mul_of_nonneg_right ha n0.le
  have k2 := mul_le_mul_of_nonneg_right hb n0.le
  have k3 : eps53 * (|a| * |b| * eps53) ≤ 1 / 10 ^ 15 * (|a| * |b| * eps53) := mul_le_mul_of_nonneg_right e1 (by positivity)
  have k4 : eps53 * (|a| * eta75) ≤ 1 / 10 ^ 15 * (|a| * eta75) := mul_le_mul_of_nonneg_right e1 (mul_nonneg a0 n0.le)
  have k5 : eps53 * (|b| * eta75) ≤ 1 / 10 ^ 15 * (|b| * eta75) := mul_le_mul_of_nonneg_right e1 (mul_nonneg b0 n0.le)
  have k6 : eta75 * eta75 ≤ 1 / 1000 * eta75 := mul_le_mul_of_nonneg_right (by linarith) n0.le
  have : 0 ≤ |a| * |b| * eps53 := by positivity
  linarith [show (|a| * eps53 + eta75) * (|b| * eps53 + eta75) = eps53 * (|a| * |b| * eps53) + eps53 * (|a| * eta75) + eps53 * (|b| * eta75) + eta75 * eta75 by ring]

/-- A component of the cross product of a sum and a difference. -/
theorem comp_gen {fl : ℝ → ℝ} (h : Rounding fl) {a b c d M : ℝ} (ha : |a| ≤ 4) (hb : |b| ≤ 4) (hc : |c| ≤ 4) (hd : |d| ≤ 4)
    (hM : |a * d| + |b * c| ≤ M) (h1 : M ≤ 100) (ht : eta75 ≤ M * eps53 / 10000) :
    |fl (fl (fl a * fl d) - fl (fl b * fl c)) - (a * d - b * c)| ≤ 45 / 10 * (M * eps53) := by
  have e0 := eps53_pos
  have e1 := eps53_le
  have n0 := eta75_pos
  have x := prod_gen h ha hd
  have y := prod_gen h hb hc
  rw [← abs_mul] at x y
  have M0 : 0 ≤ M := le_trans (by positivity) hM
  have m := mul_le_mul_of_nonneg_right hM e0.le
  have me := mul_le_mul_of_nonneg_left e1 M0
  have s := abs_sub_abs_le_abs_sub (fl a * fl d) (a * d)
  have t := abs_sub_abs_le_abs_sub (fl b * fl c) (b * c)
  have B : (256 : ℝ) ≤ big1000 := by
    calc (256 : ℝ) = 2 ^ 8 := by norm_num
      _ ≤ big1000 := pow_le_pow_right₀ (by norm_num) (by norm_num)
  have z := cross_gen h (P := fl a * fl d) (Q := fl b * fl c) (M := 1001 / 1000 * M) (by linarith) (by linarith) (by linarith)
  have u := abs_sub (fl a * fl d - a * d) (fl b * fl c - b * c)
  have v := abs_add_le (fl (fl (fl a * fl d) - fl (fl b * fl c)) - (fl a * fl d - fl b * fl c)) (fl a * fl d - a * d - (fl b * fl c - b * c))
  rw [show fl (fl (fl a * fl d) - fl (fl b * fl c)) - (fl a * fl d - fl b * fl c) + (fl a * fl d - a * d - (fl b * fl c - b * c)) =
    fl (fl (fl a * fl d) - fl (fl b * fl c)) - (a * d - b * c) by ring] at v
  linarith

theorem cauchy2 {a b c d S D : ℝ} (S0 : 0 ≤ S) (D0 : 0 ≤ D) (h1 : a * a + b * b ≤ S ^ 2) (h2 : c * c + d * d ≤ D ^ 2) :
    |a * d| + |b * c| ≤ S * D := by
  apply le_of_sq_le_sq _ (mul_nonneg S0 D0)
  have k := mul_le_mul h1 h2 (by have := mul_self_nonneg c; have := mul_self_nonneg d; linarith) (sq_nonneg S)
  rw [abs_mul, abs_mul, mul_pow]
  refine le_trans ?_ k
  have a2 := abs_mul_abs_self a
  have b2 := abs_mul_abs_self b
  have c2 := abs_mul_abs_self c
  have d2 := abs_mul_abs_self d
  rw [← a2, ← b2, ← c2, ← d2]
  nlinarith [sq_nonneg (|a| * |c| - |b| * |d|)]

/-- The computed vector of `Point::cross` and twice the cross product. -/
theorem pcross_gen {fl : ℝ → ℝ} (h : Rounding fl) {p q : Vec ℝ} {S D : ℝ} (hp : ∀ ax, |comp p ax| ≤ 2) (hq : ∀ ax, |comp q ax| ≤ 2) (S0 : 0 ≤ S)
    (D0 : 0 ≤ D) (hS : S ^ 2 = dot (Vec.add _root_.id p q) (Vec.add _root_.id p q)) (hD : D ^ 2 = dot (Vec.sub _root_.id q p) (Vec.sub _root_.id q p))
    (h0 : 1 / 2 ^ 700 ≤ S * D) (ax : Vec.Axis) :
    |comp (Vec.cross fl (Vec.add fl p q) (Vec.sub fl q p)) ax - 2 * comp (cross p q) ax| ≤ 45 / 10 * (S * D * eps53) := by
  have e0 := eps53_pos
  have p1 : |p.x| ≤ 2 := hp .X
  have p2 : |p.y| ≤ 2 := hp .Y
  have p3 : |p.z| ≤ 2 := hp .Z
  have q1 : |q.x| ≤ 2 := hq .X
  have q2 : |q.y| ≤ 2 := hq .Y
  have q3 : |q.z| ≤ 2 := hq .Z
  have ad : ∀ a b : ℝ, |a| ≤ 2 → |b| ≤ 2 → |a + b| ≤ 4 ∧ |b - a| ≤ 4 := by
    intro a b ha hb
    have := abs_add_le a b
    have := abs_sub b a
    exact ⟨by linarith, by linarith⟩
  obtain ⟨sx, dx⟩ := ad _ _ p1 q1
  obtain ⟨sy, dy⟩ := ad _ _ p2 q2
  obtain ⟨sz, dz⟩ := ad _ _ p3 q3
  simp only [dot, Vec.add, Vec.sub, _root_.id] at hS hD
  have a1 := mul_self_nonneg (p.x + q.x)
  have a2 := mul_self_nonneg (p.y + q.y)
  have a3 := mul_self_nonneg (p.z + q.z)
  have b1 := mul_self_nonneg (q.x - p.x)
  have b2 := mul_self_nonneg (q.y - p.y)
  have b3 := mul_self_nonneg (q.z - p.z)
  have sq4 : ∀ x : ℝ, |x| ≤ 4 → x * x ≤ 16 := by
    intro x hx
    have := mul_self_le_mul_self (abs_nonneg x) hx
    rw [abs_mul_abs_self] at this
    linarith
  have S1 : S ≤ 10 := le_of_sq_le_sq (by rw [hS]; linarith [sq4 _ sx, sq4 _ sy, sq4 _ sz]) (by norm_num)
  have D1 : D ≤ 10 := le_of_sq_le_sq (by rw [hD]; linarith [sq4 _ dx, sq4 _ dy, sq4 _ dz]) (by norm_num)
  have M1 : S * D ≤ 100 := le_trans (mul_le_mul S1 D1 D0 (by norm_num)) (by norm_num)
  have ht : eta75 ≤ S * D * eps53 / 10000 := by
    refine eta75_le.trans ?_
    have k : (1 : ℝ) / 2 ^ 800 = 1 / 2 ^ 700 * (1 / 2 ^ 100) := by rw [one_div_mul_one_div, ← pow_add]
    have m : (1 : ℝ) / 2 ^ 700 * (1 / 2 ^ 100) ≤ 1 / 2 ^ 700 * (1 / 10) := mul_le_mul_of_nonneg_left (by norm_num) (by positivity)
    have l : (1 : ℝ) / 2 ^ 800 ≤ S * D * (1 / 10) := by linarith
    have := mul_le_mul_of_nonneg_right l (by positivity : 0 ≤ eps53 / 1000)
    linarith
  cases ax
  · have := comp_gen h sy sz dy dz (cauchy2 S0 D0 (by linarith) (by linarith)) M1 ht
    refine le_trans (le_of_eq ?_) this
    simp only [comp, Vec.cross, Vec.add, Vec.sub, cross]
    congr 1
    ring
  · have := comp_gen h sz sx dz dx (cauchy2 S0 D0 (by linarith) (by linarith)) M1 ht
    refine le_trans (le_of_eq ?_) this
    simp only [comp, Vec.cross, Vec.add, Vec.sub, cross]
    congr 1
    ring
  · have := comp_gen h sx sy dx dy (cauchy2 S0 D0 (by linarith) (by linarith)) M1 ht
    refine le_trans (le_of_eq ?_) this
    simp only [comp, Vec.cross, Vec.add, Vec.sub, cross]
    congr 1
    ring

/-- **C117.** `Point::cross` with rounding, for vectors that are not almost parallel compared with the difference of their lengths: the
result is twice the cross product up to `2^-50` times the product of the lengths of the sum and the difference, it is not zero, and it is
orthogonal to both vectors up to `2^-49`. -/
theorem c117_cross {fl : ℝ → ℝ} (h : Rounding fl) {p q : Vec ℝ} {S D : ℝ} (hp : ∀ ax, |comp p ax| ≤ 2) (hq : ∀ ax, |comp q ax| ≤ 2) (S0 : 0 ≤ S)
    (D0 : 0 ≤ D) (hS : S ^ 2 = dot (Vec.add _root_.id p q) (Vec.add _root_.id p q)) (hD : D ^ 2 = dot (Vec.sub _root_.id q p) (Vec.sub _root_.id q p))
    (h0 : 1 / 2 ^ 700 ≤ S * D) (hl : |dot q q - dot p p| ≤ S * D / 2) :
    (∀ ax, |comp (Vec.pointCross fl Real.sqrt p q) ax - 2 * comp (cross p q) ax| ≤ 1 / 2 ^ 50 * (S * D)) ∧
    ¬ IsZero (Vec.pointCross fl Real.sqrt p q) ∧
    ∀ r, r = p ∨ r = q → |dot (Vec.pointCross fl Real.sqrt p q) r| ≤
      1 / 2 ^ 49 * (Real.sqrt (dot (Vec.pointCross fl Real.sqrt p q) (Vec.pointCross fl Real.sqrt p q)) * Real.sqrt (dot r r)) := by
  have e0 := eps53_pos
  have e1 := eps53_le
  have k := pcross_gen h hp hq S0 D0 hS hD h0
  have M0 : 0 < S * D := lt_of_lt_of_le (by positivity) h0
  -- twice the cross product
  have lag : dot (cross p q) (cross p q) * 4 = (S * D) ^ 2 - (dot q q - dot p p) ^ 2 := by
    rw [mul_pow, hS, hD]; simp only [dot, cross, Vec.add, Vec.sub, _root_.id]; ring
  have l2 : (dot q q - dot p p) ^ 2 ≤ (S * D / 2) ^ 2 := by rw [← sq_abs]; exact pow_le_pow_left₀ (abs_nonneg _) hl 2
  have M2 : 0 < (S * D) ^ 2 := by positivity
  generalize S * D = M at *
  have me := mul_le_mul_of_nonneg_left e1 M0.le
  generalize hn : Vec.cross fl (Vec.add fl p q) (Vec.sub fl q p) = n at *
  have k1 : |n.x - 2 * (cross p q).x| ≤ 45 / 10 * (M * eps53) := k .X
  have k2 : |n.y - 2 * (cross p q).y| ≤ 45 / 10 * (M * eps53) := k .Y
  have k3 : |n.z - 2 * (cross p q).z| ≤ 45 / 10 * (M * eps53) := k .Z
  have g0 : 0 ≤ dot n n := by unfold dot; have := mul_self_nonneg n.x; have := mul_self_nonneg n.y; have := mul_self_nonneg n.z; linarith
  have gs := Real.sq_sqrt g0
  have s0 := Real.sqrt_nonneg (dot n n)
  have c0 : 0 ≤ dot (smul 2 (cross p q)) (smul 2 (cross p q)) := by
    unfold dot
    have := mul_self_nonneg (smul 2 (cross p q)).x
    have := mul_self_nonneg (smul 2 (cross p q)).y
    have := mul_self_nonneg (smul 2 (cross p q)).z
    linarith
  have cs : dot (smul 2 (cross p q)) (smul 2 (cross p q)) = dot (cross p q) (cross p q) * 4 := by unfold dot smul; ring
  have c1 : 866 / 1000 * M ≤ Real.sqrt (dot (smul 2 (cross p q)) (smul 2 (cross p q))) := by
    apply Real.le_sqrt_of_sq_le
    rw [cs, lag]
    linarith [show (866 / 1000 * M) ^ 2 = 749956 / 1000000 * M ^ 2 by ring, show (M / 2) ^ 2 = M ^ 2 / 4 by ring]
  have len := length_lip (v := n) (w := smul 2 (cross p q)) s0 (Real.sqrt_nonneg _) gs (Real.sq_sqrt c0) (B := 9 * (M * eps53)) (by positivity) (by
    have q : ∀ x : ℝ, |x| ≤ 45 / 10 * (M * eps53) → x ^ 2 ≤ 2025 / 100 * (M * eps53) ^ 2 := by
      intro x hx
      have := pow_le_pow_left₀ (abs_nonneg x) hx 2
      rw [sq_abs] at this
      linarith
    have := q _ k1
    have := q _ k2
    have := q _ k3
    have := sq_nonneg (M * eps53)
    simp only [smul]
    linarith)
  have s1 : 865 / 1000 * M ≤ Real.sqrt (dot n n) := by
    have := (abs_le.1 len).1
    linarith
  have hz : ¬ IsZero n := by
    rintro ⟨z1, z2, z3⟩
    have : dot n n = 0 := by unfold dot; rw [z1, z2, z3]; ring
    rw [this, Real.sqrt_zero] at s1
    linarith
  have e : Vec.pointCross fl Real.sqrt p q = n := by rw [pointCross_of Real.sqrt (by rw [hn]; exact hz), hn]
  rw [e]
  refine ⟨?_, hz, ?_⟩
  · intro ax
    have := k ax
    have k50 : (1 : ℝ) / 2 ^ 50 = 8 * eps53 := by unfold eps53; norm_num
    rw [k50]
    have := mul_nonneg M0.le e0.le
    linarith
  · intro r hr
    have r0 : 0 ≤ dot r r := by unfold dot; have := mul_self_nonneg r.x; have := mul_self_nonneg r.y; have := mul_self_nonneg r.z; linarith
    have d := dot_small (d := ⟨n.x - 2 * (cross p q).x, n.y - 2 * (cross p q).y, n.z - 2 * (cross p q).z⟩) (v := r) (k := 45 / 10 * (M * eps53))
      (by positivity) (Real.sqrt_nonneg _) (Real.sq_sqrt r0).ge k1 k2 k3
    have z : dot (cross p q) r = 0 := by
      rcases hr with rfl | rfl
      · unfold dot cross; ring
      · unfold dot cross; ring
    rw [show dot (⟨n.x - 2 * (cross p q).x, n.y - 2 * (cross p q).y, n.z - 2 * (cross p q).z⟩ : Vec ℝ) r = dot n r - 2 * dot (cross p q) r by
      unfold dot; ring, z, mul_zero, sub_zero] at d
    have k49 : (1 : ℝ) / 2 ^ 49 = 16 * eps53 := by unfold eps53; norm_num
    rw [k49]
    have m := mul_le_mul_of_nonneg_right s1 (by positivity : 0 ≤ 16 * eps53 * Real.sqrt (dot r r))
    have : 0 ≤ M * eps53 * Real.sqrt (dot r r) := by positivity
    linarith [show 865 / 1000 * M * (16 * eps53 * Real.sqrt (dot r r)) = 1384 / 100 * (M * eps53 * Real.sqrt (dot r r)) by ring]

/-- **C117.** The condition on the lengths is needed: there are two unit vectors of doubles (for `is_unit`) whose computed cross product is
at an angle of less than 75 degrees to the first, although it is documented to be orthogonal. -/
theorem c117_cross_defect {eps : ℝ} (h : 1 / 2 ^ 45 < eps) : ∃ p q : Vec ℝ, VecF64 p ∧ VecF64 q ∧ p.isUnit rne eps = true ∧ q.isUnit rne eps = true ∧
    ¬ IsZero (Vec.pointCross rne Real.sqrt p q) ∧
    1 / 4 * (Real.sqrt (dot (Vec.pointCross rne Real.sqrt p q) (Vec.pointCross rne Real.sqrt p q)) * Real.sqrt (dot p p)) <
      |dot (Vec.pointCross rne Real.sqrt p q) p| := by
  refine ⟨nearA, nearB, near_f64.1, near_f64.2, (near_isUnit h).1, (near_isUnit h).2, ?_⟩
  rw [near_normal]
  refine ⟨?_, ?_⟩
  · rintro ⟨z, -⟩
    unfold nearN at z
    norm_num at z
  · rw [← Real.sqrt_mul (by unfold dot nearN; positivity)]
    rw [show (1 : ℝ) / 4 = Real.sqrt (1 / 16) by rw [show (1 : ℝ) / 16 = (1 / 4) ^ 2 by norm_num, Real.sqrt_sq (by norm_num)],
      ← Real.sqrt_mul (by norm_num), Real.sqrt_lt' (by unfold dot nearN nearA; norm_num), sq_abs]
    unfold dot nearN nearA
    norm_num

/-! ## Examples -/

/-- The hypotheses are satisfiable: the vector `(3, 4, 12)`. -/
example : (Vec.normalize rne Real.sqrt ⟨3, 4, 12⟩).isUnit rne (5 / 10 ^ 14 : ℝ) = true :=
  (c117_normalize rounding_rne (v := ⟨3, 4, 12⟩) (r := 13)
    (le_trans (one_div_le_one_div_of_le (by positivity) (pow_le_pow_right₀ (by norm_num) (by norm_num : 1 ≤ 400))) (by norm_num))
    (le_trans (by norm_num : (13 : ℝ) ≤ 2 ^ 4) (pow_le_pow_right₀ (by norm_num) (by norm_num))) (by unfold dot; norm_num) (by norm_num)).2.2

example : |dot (Vec.ortho rne Real.sqrt ⟨3, 4, 12⟩) (⟨3, 4, 12⟩ : Vec ℝ)| ≤ 1 / 2 ^ 49 * 13 :=
  (c117_ortho (eps := 5 / 10 ^ 14) rounding_rne (p := ⟨3, 4, 12⟩) (r := 13)
    (le_trans (one_div_le_one_div_of_le (by positivity) (pow_le_pow_right₀ (by norm_num) (by norm_num : 1 ≤ 390))) (by norm_num))
    (le_trans (by norm_num : (13 : ℝ) ≤ 2 ^ 4) (pow_le_pow_right₀ (by norm_num) (by norm_num))) (by unfold dot; norm_num) (by norm_num)).1

example : |comp (Vec.toFrame rne (Vec.frame rne Real.sqrt ⟨0, 0, 1⟩) (Vec.fromFrame rne (Vec.frame rne Real.sqrt ⟨0, 0, 1⟩) ⟨1 / 2, 1, -1⟩)) .X - (1 / 2 : ℝ)| ≤
    1 / 2 ^ 43 :=
  (c117_roundtrip rounding_rne (p := ⟨0, 0, 1⟩) (q := ⟨1 / 2, 1, -1⟩) (by unfold dot; norm_num) (fun ax => by cases ax <;> norm_num [comp, abs_le]) .X).1

/-- Two different vectors of equal length. -/
example : ¬ IsZero (Vec.pointCross rne Real.sqrt ⟨1, 0, 0⟩ ⟨0, 1, 0⟩) := by
  refine (c117_cross rounding_rne (S := Real.sqrt 2) (D := Real.sqrt 2) (fun ax => by cases ax <;> norm_num [comp]) (fun ax => by cases ax <;> norm_num [comp])
    (Real.sqrt_nonneg _) (Real.sqrt_nonneg _) ?_ ?_ ?_ ?_).2.1
  · rw [Real.sq_sqrt (by norm_num)]; simp only [dot, Vec.add, _root_.id]; norm_num
  · rw [Real.sq_sqrt (by norm_num)]; simp only [dot, Vec.sub, _root_.id]; norm_num
  · rw [Real.mul_self_sqrt (by norm_num)]
    exact le_trans (one_div_le_one_div_of_le (by positivity) (pow_le_pow_right₀ (by norm_num) (by norm_num : 1 ≤ 700))) (by norm_num)
  · rw [Real.mul_self_sqrt (by norm_num)]; simp only [dot]; norm_num

end Verif
