import Verif.Properties.Vector
import Verif.Proofs.Near
import Verif.Model.Predicates
import Mathlib.Tactic.LinearCombination

/-! # The rounding error of the determinant `(p × q) · c` -/

namespace Verif
open Spec

variable {K : Type} [Field K] [LinearOrder K] [IsStrictOrderedRing K]

/-- A rounding error bound with relative part `u` and absolute part `t`. -/
theorem cross_comp_near {fl : K → K} {u t : K} (hu0 : 0 ≤ u) (hu : u ≤ 1 / 10 ^ 15) (ht0 : 0 ≤ t) (ht : t ≤ 1)
    (h : ∀ x : K, |x| ≤ 256 → |fl x - x| ≤ u * |x| + t) {x y : K} (hx : |x| ≤ 64) (hy : |y| ≤ 64) :
    |fl (fl x - fl y) - (x - y)| ≤ u * |x - y| + (1 + u) * (u * (|x| + |y|) + 2 * t) + t := by
  have h1 := h x (by linarith)
  have h2 := h y (by linarith)
  have a0 : u * |x| ≤ 1 := by nlinarith [abs_nonneg x]
  have b0 : u * |y| ≤ 1 := by nlinarith [abs_nonneg y]
  have e1 : |fl x - fl y - (x - y)| ≤ u * (|x| + |y|) + 2 * t := by
    rw [show fl x - fl y - (x - y) = (fl x - x) - (fl y - y) by ring]
    refine (abs_sub _ _).trans ?_
    linarith
  have e2 : |x - y| ≤ |x| + |y| := abs_sub _ _
  have e3 : |fl x - fl y| ≤ |x - y| + (u * (|x| + |y|) + 2 * t) := abs_of_near e1 le_rfl
  have e4 := h (fl x - fl y) (by linarith)
  have e5 := abs_add_le (fl (fl x - fl y) - (fl x - fl y)) (fl x - fl y - (x - y))
  rw [sub_add_sub_cancel] at e5
  have e6 := mul_le_mul_of_nonneg_left e3 hu0
  linarith

theorem dot3_near {fl : K → K} {u t : K} (hu0 : 0 ≤ u) (hu : u ≤ 1 / 10 ^ 15) (ht0 : 0 ≤ t) (ht : t ≤ 1)
    (h : ∀ x : K, |x| ≤ 256 → |fl x - x| ≤ u * |x| + t) {x y z : K} (hx : |x| ≤ 64) (hy : |y| ≤ 64) (hz : |z| ≤ 64) :
    |fl (fl x + fl y) + fl z - (x + y + z)| ≤
      (3 / 2 * u + u * u) * (|x| + |y| + |z|) + u / 2 * |x + y + z| + 5 * t := by
  have h1 := h x (by linarith)
  have h2 := h y (by linarith)
  have h3 := h z (by linarith)
  have a0 : u * |x| ≤ 1 := by nlinarith [abs_nonneg x]
  have b0 : u * |y| ≤ 1 := by nlinarith [abs_nonneg y]
  have e1 : |fl x + fl y - (x + y)| ≤ u * (|x| + |y|) + 2 * t := by
    rw [show fl x + fl y - (x + y) = (fl x - x) + (fl y - y) by ring]
    refine (abs_add_le _ _).trans ?_
    linarith
  have e2 : |x + y| ≤ |x| + |y| := abs_add_le _ _
  have e2' : |x + y| ≤ |x + y + z| + |z| := by
    have := abs_sub (x + y + z) z
    rwa [add_sub_cancel_right] at this
  have e3 : |fl x + fl y| ≤ |x + y| + (u * (|x| + |y|) + 2 * t) := abs_of_near e1 le_rfl
  have e4 := h (fl x + fl y) (by linarith)
  have e5 : |fl (fl x + fl y) + fl z - (x + y + z)| ≤
      |fl (fl x + fl y) - (fl x + fl y)| + |fl x + fl y - (x + y)| + |fl z - z| := by
    rw [show fl (fl x + fl y) + fl z - (x + y + z)
      = (fl (fl x + fl y) - (fl x + fl y)) + (fl x + fl y - (x + y)) + (fl z - z) by ring]
    exact (abs_add_le _ _).trans (by linarith [abs_add_le (fl (fl x + fl y) - (fl x + fl y)) (fl x + fl y - (x + y))])
  have e6 := mul_le_mul_of_nonneg_left e3 hu0
  have e7 : u * |x + y| ≤ u / 2 * (|x| + |y| + |z|) + u / 2 * |x + y + z| := by
    have : |x + y| ≤ 1 / 2 * (|x| + |y| + |z|) + 1 / 2 * |x + y + z| := by linarith
    have := mul_le_mul_of_nonneg_left this hu0
    linarith
  have e8 : u * (2 * t) ≤ t := by nlinarith
  have e9 : 0 ≤ u * u * |z| := by positivity
  linarith

/-- The sums of absolute values that bound the error, by the lengths. -/
theorem cs3 {a1 a2 a3 c1 c2 c3 S : K} (hS : 0 ≤ S) (h : (a1 * a1 + a2 * a2 + a3 * a3) * (c1 * c1 + c2 * c2 + c3 * c3) ≤ S * S) :
    |a1| * |c1| + |a2| * |c2| + |a3| * |c3| ≤ S := by
  rw [← abs_mul_abs_self a1, ← abs_mul_abs_self a2, ← abs_mul_abs_self a3, ← abs_mul_abs_self c1, ← abs_mul_abs_self c2,
    ← abs_mul_abs_self c3] at h
  generalize |a1| = x1 at *
  generalize |a2| = x2 at *
  generalize |a3| = x3 at *
  generalize |c1| = y1 at *
  generalize |c2| = y2 at *
  generalize |c3| = y3 at *
  refine abs_le_of_sq_le_sq' ?_ hS |>.2
  nlinarith [sq_nonneg (x1 * y2 - x2 * y1), sq_nonneg (x1 * y3 - x3 * y1), sq_nonneg (x2 * y3 - x3 * y2)]

theorem sumA (a1 a2 a3 b1 b2 b3 : K) :
    3 * ((a2 * b3 + a3 * b2) * (a2 * b3 + a3 * b2) + (a3 * b1 + a1 * b3) * (a3 * b1 + a1 * b3) + (a1 * b2 + a2 * b1) * (a1 * b2 + a2 * b1))
      ≤ 4 * ((a1 * a1 + a2 * a2 + a3 * a3) * (b1 * b1 + b2 * b2 + b3 * b3)) := by
  nlinarith [sq_nonneg (a2 * b3 - a3 * b2), sq_nonneg (a3 * b1 - a1 * b3), sq_nonneg (a1 * b2 - a2 * b1),
    sq_nonneg (a1 * b1 - a2 * b2), sq_nonneg (a1 * b1 - a3 * b3), sq_nonneg (a3 * b3 - a2 * b2)]

theorem abs_le_of_dot {c : Vec K} {B : K} (hB : 0 ≤ B) (hc : dot c c ≤ B * B) : |c.x| ≤ B ∧ |c.y| ≤ B ∧ |c.z| ≤ B := by
  unfold dot at hc
  refine ⟨abs_le_of_sq_le_sq ?_ hB, abs_le_of_sq_le_sq ?_ hB, abs_le_of_sq_le_sq ?_ hB⟩ <;>
    nlinarith [mul_self_nonneg c.x, mul_self_nonneg c.y, mul_self_nonneg c.z]

/-- The sum of the absolute values of the twelve products of the determinant. -/
def absDet (p q c : Vec K) : K :=
  (|p.y * q.z| + |p.z * q.y|) * |c.x| + (|p.z * q.x| + |p.x * q.z|) * |c.y| + (|p.x * q.y| + |p.y * q.x|) * |c.z|

theorem absDet_le {p q c : Vec K} {R : K} (hR : 0 ≤ R) (hc : dot c c ≤ 1 + 1 / 2 ^ 40) (hpq : dot p p * dot q q ≤ R * R) :
    absDet p q c ≤ 1154701 / 1000000 * R := by
  have hs := sumA |p.x| |p.y| |p.z| |q.x| |q.y| |q.z|
  have h1 : |p.x| * |p.x| + |p.y| * |p.y| + |p.z| * |p.z| = dot p p := by simp only [abs_mul_abs_self]; rfl
  have h2 : |q.x| * |q.x| + |q.y| * |q.y| + |q.z| * |q.z| = dot q q := by simp only [abs_mul_abs_self]; rfl
  rw [h1, h2] at hs
  have e : absDet p q c = |(|p.y| * |q.z| + |p.z| * |q.y|)| * |c.x| + |(|p.z| * |q.x| + |p.x| * |q.z|)| * |c.y|
      + |(|p.x| * |q.y| + |p.y| * |q.x|)| * |c.z| := by
    unfold absDet
    simp only [abs_mul]
    rw [abs_of_nonneg (by positivity : 0 ≤ |p.y| * |q.z| + |p.z| * |q.y|), abs_of_nonneg (by positivity : 0 ≤ |p.z| * |q.x| + |p.x| * |q.z|),
      abs_of_nonneg (by positivity : 0 ≤ |p.x| * |q.y| + |p.y| * |q.x|)]
  rw [e]
  refine cs3 (by positivity) ?_
  change _ * dot c c ≤ _
  generalize (|p.y| * |q.z| + |p.z| * |q.y|) * (|p.y| * |q.z| + |p.z| * |q.y|) + (|p.z| * |q.x| + |p.x| * |q.z|) * (|p.z| * |q.x| + |p.x| * |q.z|)
      + (|p.x| * |q.y| + |p.y| * |q.x|) * (|p.x| * |q.y| + |p.y| * |q.x|) = Z at *
  have hz : Z ≤ 4 / 3 * (R * R) := by linarith
  have hc0 : 0 ≤ dot c c := by unfold dot; nlinarith [mul_self_nonneg c.x, mul_self_nonneg c.y, mul_self_nonneg c.z]
  have h3 := mul_le_mul_of_nonneg_right hz hc0
  have h4 := mul_le_mul_of_nonneg_left hc (by positivity : 0 ≤ 4 / 3 * (R * R))
  have h5 : 0 ≤ R * R := by positivity
  nlinarith

theorem crossDot_le {p q c : Vec K} {R : K} (hR : 0 ≤ R) (hc : dot c c ≤ 1 + 1 / 2 ^ 40) (hpq : dot p p * dot q q ≤ R * R) :
    |(cross p q).x| * |c.x| + |(cross p q).y| * |c.y| + |(cross p q).z| * |c.z| ≤ 1000001 / 1000000 * R := by
  refine cs3 (by positivity) ?_
  have h1 : (cross p q).x * (cross p q).x + (cross p q).y * (cross p q).y + (cross p q).z * (cross p q).z ≤ dot p p * dot q q := by
    unfold cross dot
    dsimp only
    nlinarith [sq_nonneg (p.x * q.x + p.y * q.y + p.z * q.z)]
  change _ * dot c c ≤ _
  generalize (cross p q).x * (cross p q).x + (cross p q).y * (cross p q).y + (cross p q).z * (cross p q).z = Z at *
  have hz : Z ≤ R * R := by linarith
  have hc0 : 0 ≤ dot c c := by unfold dot; nlinarith [mul_self_nonneg c.x, mul_self_nonneg c.y, mul_self_nonneg c.z]
  have h3 := mul_le_mul_of_nonneg_right hz hc0
  have h4 := mul_le_mul_of_nonneg_left hc (by positivity : 0 ≤ R * R)
  have h5 : 0 ≤ R * R := by positivity
  nlinarith

theorem summand_near {u t : K} (hu0 : 0 ≤ u) (hu : u ≤ 1 / 10 ^ 15) (ht0 : 0 ≤ t) {n N A d : K}
    (h1 : |n - N| ≤ u * |N| + (1 + u) * (u * A + 2 * t) + t) :
    |n * d - N * d| ≤ u * (|N| * |d|) + (1 + u) * u * (A * |d|) + 4 * t * |d| := by
  rw [← sub_mul, abs_mul]
  have h2 := mul_le_mul_of_nonneg_right h1 (abs_nonneg d)
  have h3 : 0 ≤ t * |d| := by positivity
  have h4 : u * (t * |d|) ≤ 1 / 10 ^ 15 * (t * |d|) := mul_le_mul_of_nonneg_right hu h3
  generalize |n - N| = a at *
  generalize |N| = b at *
  generalize |d| = e at *
  have e1 : (u * b + (1 + u) * (u * A + 2 * t) + t) * e = u * (b * e) + (1 + u) * u * (A * e) + 3 * (t * e) + 2 * (u * (t * e)) := by ring
  rw [e1] at h2
  have e2 : 4 * t * e = 4 * (t * e) := by ring
  rw [e2]
  generalize u * (t * e) = g1 at *
  generalize t * e = g2 at *
  linarith

theorem summand_le {u t : K} (hu0 : 0 ≤ u) (hu : u ≤ 1 / 10 ^ 15) (ht0 : 0 ≤ t) (ht : t ≤ 1 / 100) {n N A d : K}
    (h1 : |n - N| ≤ u * |N| + (1 + u) * (u * A + 2 * t) + t) (hN : |N| ≤ A) (hA : 0 ≤ A) (hA2 : A ≤ 32) (hd : |d| ≤ 3 / 2) :
    |n * d| ≤ 64 := by
  have h2 : |n| ≤ |N| + (u * |N| + (1 + u) * (u * A + 2 * t) + t) := abs_of_near h1 le_rfl
  have h3 : u * |N| ≤ 1 / 10 := by nlinarith [abs_nonneg N]
  have h4 : u * A ≤ 1 / 10 := by nlinarith
  have h5 : (1 + u) * (u * A + 2 * t) ≤ 2 * (1 / 10 + 2 * (1 / 100)) := by
    apply mul_le_mul (by linarith) (by linarith) (by positivity) (by norm_num)
  rw [abs_mul]
  have h6 : |n| ≤ 40 := by linarith
  nlinarith [abs_nonneg n, abs_nonneg d]

theorem det_total {u t : K} (hu0 : 0 ≤ u) (hu : u ≤ 1 / 10 ^ 15) (ht0 : 0 ≤ t) {R W V S T D M0 : K} (hR : 0 ≤ R) (hW0 : 0 ≤ W) (hV0 : 0 ≤ V)
    (hW : W ≤ 1000001 / 1000000 * R) (hV : V ≤ 1154701 / 1000000 * R)
    (hd : |M0 - T| ≤ (3 / 2 * u + u * u) * S + u / 2 * |T| + 5 * t)
    (hTD : |T - D| ≤ u * W + (1 + u) * u * V + 8 * t) (hS : S ≤ W + (u * W + (1 + u) * u * V + 8 * t))
    (hTa : |T| ≤ |D| + (u * W + (1 + u) * u * V + 8 * t)) (hMD : |M0 - D| ≤ |M0 - T| + |T - D|) :
    |M0 - D| ≤ 365471 / 100000 * (u * R) + u / 2 * |D| + 40 * t := by
  have uW : u * W ≤ 1000001 / 1000000 * (u * R) := by have := mul_le_mul_of_nonneg_left hW hu0; linarith
  have uV : u * V ≤ 1154701 / 1000000 * (u * R) := by have := mul_le_mul_of_nonneg_left hV hu0; linarith
  have uR0 : 0 ≤ u * R := by positivity
  have uW0 : 0 ≤ u * W := by positivity
  have uV0 : 0 ≤ u * V := by positivity
  have small : ∀ {x : K}, 0 ≤ x → u * x ≤ 1 / 10 ^ 15 * x := fun hx => mul_le_mul_of_nonneg_right hu hx
  have uuV := small uV0
  have uuW := small uW0
  have q0 : u * W + (1 + u) * u * V + 8 * t ≤ u * W + u * V + 1 / 10 ^ 15 * (u * V) + 8 * t := by
    have : u * W + (1 + u) * u * V + 8 * t = u * W + u * V + u * (u * V) + 8 * t := by ring
    linarith
  generalize u * W + (1 + u) * u * V + 8 * t = Q at *
  have Q0 : 0 ≤ Q := (abs_nonneg _).trans hTD
  have hS1 := mul_le_mul_of_nonneg_left hS (by positivity : 0 ≤ 3 / 2 * u + u * u)
  have hT1 := mul_le_mul_of_nonneg_left hTa (by positivity : 0 ≤ u / 2)
  have uQ := small Q0
  have uuQ := small (mul_nonneg hu0 Q0)
  have e1 : (3 / 2 * u + u * u) * (W + Q) = 3 / 2 * (u * W) + u * (u * W) + 3 / 2 * (u * Q) + u * (u * Q) := by ring
  have e2 : u / 2 * (|D| + Q) = u / 2 * |D| + 1 / 2 * (u * Q) := by ring
  rw [e1] at hS1
  rw [e2] at hT1
  generalize u / 2 * |D| = g1 at *
  generalize u * (u * W) = g2 at *
  generalize u * (u * V) = g3 at *
  generalize u * (u * Q) = g4 at *
  generalize u * Q = g5 at *
  generalize u * W = g6 at *
  generalize u * V = g7 at *
  generalize u * R = g8 at *
  generalize u / 2 * |T| = g9 at *
  generalize (3 / 2 * u + u * u) * S = g10 at *
  clear small
  norm_num at *
  linarith

theorem det_near_aux {fl : K → K} {u t : K} (hu0 : 0 ≤ u) (hu : u ≤ 1 / 10 ^ 15) (ht0 : 0 ≤ t) (ht : t ≤ 1 / 100)
    (h : ∀ x : K, |x| ≤ 256 → |fl x - x| ≤ u * |x| + t) {p q c : Vec K} {R : K}
    (hp : |p.x| ≤ 4 ∧ |p.y| ≤ 4 ∧ |p.z| ≤ 4) (hq : |q.x| ≤ 4 ∧ |q.y| ≤ 4 ∧ |q.z| ≤ 4) (hc : dot c c ≤ 1 + 1 / 2 ^ 40)
    (hR : 0 ≤ R) (hR2 : R ≤ 64) (hpq : dot p p * dot q q ≤ R * R) :
    ∃ M0, Vec.dot fl (Vec.cross fl p q) c = fl M0 ∧ |M0| ≤ 128 ∧
      |M0 - dot (cross p q) c| ≤ 365471 / 100000 * (u * R) + u / 2 * |dot (cross p q) c| + 40 * t := by
  have hV := absDet_le hR hc hpq
  have hW := crossDot_le hR hc hpq
  obtain ⟨cx, cy, cz⟩ := abs_le_of_dot (c := c) (B := 3 / 2) (by norm_num) (hc.trans (by norm_num))
  have hcs : |c.x| + |c.y| + |c.z| ≤ 2 := by
    have := cs3 (a1 := (1 : K)) (a2 := 1) (a3 := 1) (c1 := c.x) (c2 := c.y) (c3 := c.z) (S := 2) (by norm_num)
      (by unfold dot at hc; norm_num at *; linarith)
    rwa [abs_one, one_mul, one_mul, one_mul] at this
  have m16 : ∀ {x y : K}, |x| ≤ 4 → |y| ≤ 4 → |x * y| ≤ 16 := by
    intro x y hx hy; rw [abs_mul]; nlinarith [abs_nonneg x, abs_nonneg y]
  have p1 := m16 hp.2.1 hq.2.2
  have p2 := m16 hp.2.2 hq.2.1
  have p3 := m16 hp.2.2 hq.1
  have p4 := m16 hp.1 hq.2.2
  have p5 := m16 hp.1 hq.2.1
  have p6 := m16 hp.2.1 hq.1
  have n1 := cross_comp_near hu0 hu ht0 (by linarith) h (x := p.y * q.z) (y := p.z * q.y) (by linarith) (by linarith)
  have n2 := cross_comp_near hu0 hu ht0 (by linarith) h (x := p.z * q.x) (y := p.x * q.z) (by linarith) (by linarith)
  have n3 := cross_comp_near hu0 hu ht0 (by linarith) h (x := p.x * q.y) (y := p.y * q.x) (by linarith) (by linarith)
  unfold absDet at hV
  unfold Vec.dot Vec.cross
  unfold cross at hW ⊢
  unfold dot
  dsimp only at *
  have g1 := abs_sub (p.y * q.z) (p.z * q.y)
  have g2 := abs_sub (p.z * q.x) (p.x * q.z)
  have g3 := abs_sub (p.x * q.y) (p.y * q.x)
  generalize fl (fl (p.y * q.z) - fl (p.z * q.y)) = nx at *
  generalize fl (fl (p.z * q.x) - fl (p.x * q.z)) = ny at *
  generalize fl (fl (p.x * q.y) - fl (p.y * q.x)) = nz at *
  generalize p.y * q.z - p.z * q.y = Nx at *
  generalize p.z * q.x - p.x * q.z = Ny at *
  generalize p.x * q.y - p.y * q.x = Nz at *
  set Ax := |p.y * q.z| + |p.z * q.y| with hAx
  set Ay := |p.z * q.x| + |p.x * q.z| with hAy
  set Az := |p.x * q.y| + |p.y * q.x| with hAz
  have Ax0 : 0 ≤ Ax := by positivity
  have Ay0 : 0 ≤ Ay := by positivity
  have Az0 : 0 ≤ Az := by positivity
  have k1 := summand_near hu0 hu ht0 (d := c.x) n1
  have k2 := summand_near hu0 hu ht0 (d := c.y) n2
  have k3 := summand_near hu0 hu ht0 (d := c.z) n3
  have b1 := summand_le hu0 hu ht0 ht n1 g1 Ax0 (by linarith) cx
  have b2 := summand_le hu0 hu ht0 ht n2 g2 Ay0 (by linarith) cy
  have b3 := summand_le hu0 hu ht0 ht n3 g3 Az0 (by linarith) cz
  have hd := dot3_near hu0 hu ht0 (by linarith) h b1 b2 b3
  set W := |Nx| * |c.x| + |Ny| * |c.y| + |Nz| * |c.z| with hWdef
  set V := Ax * |c.x| + Ay * |c.y| + Az * |c.z| with hVdef
  set D := Nx * c.x + Ny * c.y + Nz * c.z with hD
  set T := nx * c.x + ny * c.y + nz * c.z with hT
  have hW0 : 0 ≤ W := by positivity
  have hV0 : 0 ≤ V := by positivity
  have hsum : u * W + (1 + u) * u * V + 8 * t ≥ (u * (|Nx| * |c.x|) + (1 + u) * u * (Ax * |c.x|) + 4 * t * |c.x|)
      + (u * (|Ny| * |c.y|) + (1 + u) * u * (Ay * |c.y|) + 4 * t * |c.y|)
      + (u * (|Nz| * |c.z|) + (1 + u) * u * (Az * |c.z|) + 4 * t * |c.z|) := by
    have : 4 * t * (|c.x| + |c.y| + |c.z|) ≤ 4 * t * 2 := mul_le_mul_of_nonneg_left hcs (by linarith)
    rw [hWdef, hVdef]
    linear_combination this
  have hTD : |T - D| ≤ u * W + (1 + u) * u * V + 8 * t := by
    rw [hT, hD, show nx * c.x + ny * c.y + nz * c.z - (Nx * c.x + Ny * c.y + Nz * c.z)
      = (nx * c.x - Nx * c.x) + (ny * c.y - Ny * c.y) + (nz * c.z - Nz * c.z) by ring]
    have := abs_add_le ((nx * c.x - Nx * c.x) + (ny * c.y - Ny * c.y)) (nz * c.z - Nz * c.z)
    have := abs_add_le (nx * c.x - Nx * c.x) (ny * c.y - Ny * c.y)
    linarith
  have hS : |nx * c.x| + |ny * c.y| + |nz * c.z| ≤ W + (u * W + (1 + u) * u * V + 8 * t) := by
    have s1 := abs_of_near k1 le_rfl
    have s2 := abs_of_near k2 le_rfl
    have s3 := abs_of_near k3 le_rfl
    rw [abs_mul Nx] at s1
    rw [abs_mul Ny] at s2
    rw [abs_mul Nz] at s3
    linarith
  have hTa : |T| ≤ |D| + (u * W + (1 + u) * u * V + 8 * t) := abs_of_near hTD le_rfl
  have hDW : |D| ≤ W := by
    rw [hD, hWdef, ← abs_mul, ← abs_mul, ← abs_mul]
    exact (abs_add_le _ _).trans (by linarith [abs_add_le (Nx * c.x) (Ny * c.y)])
  generalize |nx * c.x| + |ny * c.y| + |nz * c.z| = S at *
  refine ⟨_, rfl, ?_⟩
  set M0 := fl (fl (nx * c.x) + fl (ny * c.y)) + fl (nz * c.z) with hM
  have hMD : |M0 - D| ≤ |M0 - T| + |T - D| := by
    have := abs_add_le (M0 - T) (T - D)
    rwa [sub_add_sub_cancel] at this
  have total := det_total hu0 hu ht0 hR hW0 hV0 hW hV hd hTD hS hTa hMD
  refine ⟨?_, total⟩
  have hM2 := abs_of_near total le_rfl
  have r1 : u * R ≤ 1 / 10 ^ 15 * 64 := mul_le_mul hu hR2 hR (by norm_num)
  have r2 : u / 2 * |D| ≤ 1 / 10 ^ 15 / 2 * (1000001 / 1000000 * 64) :=
    mul_le_mul (by linarith) (by linarith) (abs_nonneg D) (by norm_num)
  clear_value M0 D
  generalize u / 2 * |D| = g1 at *
  generalize u * R = g2 at *
  clear total hd hTD hS hTa hMD hsum k1 k2 k3 b1 b2 b3 n1 n2 n3
  norm_num at *
  linarith

/-- The determinant before the last rounding: the error is 3.65471 rounding units of the product of the lengths, plus half a
rounding unit of the determinant itself, plus a subnormal quantity. -/
theorem det_near {fl : K → K} (h : Rounding fl) {p q c : Vec K} {R : K}
    (hp : |p.x| ≤ 4 ∧ |p.y| ≤ 4 ∧ |p.z| ≤ 4) (hq : |q.x| ≤ 4 ∧ |q.y| ≤ 4 ∧ |q.z| ≤ 4) (hc : dot c c ≤ 1 + 1 / 2 ^ 40)
    (hR : 0 ≤ R) (hR2 : R ≤ 64) (hpq : dot p p * dot q q ≤ R * R) :
    ∃ M0, Vec.dot fl (Vec.cross fl p q) c = fl M0 ∧ |M0| ≤ 128 ∧
      |M0 - dot (cross p q) c| ≤ 365471 / 100000 * (1 / 2 ^ 53 * R) + 1 / 2 ^ 53 / 2 * |dot (cross p q) c| + 40 * (1 / 2 ^ 1075) := by
  refine det_near_aux (by positivity) (by norm_num) (by positivity) ?_ ?_ hp hq hc hR hR2 hpq
  · refine one_div_le_one_div_of_le (by norm_num) (le_trans (by norm_num : (100 : K) ≤ 2 ^ 10) ?_)
    exact pow_le_pow_right₀ (by norm_num) (by norm_num)
  · intro x hx
    have := h x (hx.trans (le_trans (by norm_num : (256 : K) ≤ 2 ^ 10) (pow_le_pow_right₀ (by norm_num) (by norm_num))))
    rwa [div_eq_mul_inv, mul_comm, ← one_div] at this

end Verif
