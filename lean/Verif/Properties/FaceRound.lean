import Verif.Proofs.FaceRound
import Verif.Properties.FaceSegments
import Verif.Properties.LeafUlp

/-!
# C114: `face_segments` with IEEE rounding

`rne` is the rounding of IEEE 754 after every operation.
-/

namespace Verif
open Spec EdgeClip

namespace Spec

/-- The line with this normal (the great circle) has a point on the face. -/
def LineMeets (f : Nat) (N : Vec ℝ) : Prop := ∃ u v P, |u| ≤ 1 ∧ |v| ≤ 1 ∧ faceUVtoXYZ f u v = some P ∧ dot N P = 0

/-- The result of `face_segments` for a line with the normal `N`, from the point `sa` of the face `f` to the point `sb` of the face `g`. -/
structure Segments (N : Vec ℝ) (f : Nat) (sa : R2.Point ℝ) (g : Nat) (sb : R2.Point ℝ) (segs : List (FaceSegment ℝ)) : Prop where
  /-- every face at most once -/
  nodup : (segs.map (·.face)).Nodup
  length : segs.length ≤ 6
  first : (segs.map (·.face)).head? = some f
  last : (segs.map (·.face)).getLast? = some g
  start : (segs.head?.map (·.a)) = some sa
  stop : (segs.getLast?.map (·.b)) = some sb
  /-- all endpoints are in the closed faces -/
  inFace : ∀ s ∈ segs, InFace s.a ∧ InFace s.b
  /-- no gaps -/
  joined : segs.IsChain SegJoined
  /-- the inner endpoints are where the line leaves the faces -/
  exits : ∀ s ∈ segs.dropLast, EndsAtExit N s
  /-- the line meets all faces -/
  meets : ∀ s ∈ segs, LineMeets s.face N

/-- The vector is in the direction of a point of the face that is not within `2^-49` of its boundary. -/
def WellInside (f : Nat) (P : Vec ℝ) : Prop :=
  f < 6 ∧ 0 < (uvw f P).z ∧ |(uvw f P).x| ≤ (1 - 1 / 2 ^ 49) * (uvw f P).z ∧ |(uvw f P).y| ≤ (1 - 1 / 2 ^ 49) * (uvw f P).z

end Spec

theorem lineMeets_iff {f : Nat} (hf : f < 6) (N : Vec ℝ) : LineMeets f N ↔ |(uvw f N).z| ≤ |(uvw f N).x| + |(uvw f N).y| := by
  have hd : ∀ u v, dot N (cubeXYZ f u v) = (uvw f N).x * u + (uvw f N).y * v + (uvw f N).z := by
    intro u v
    rw [← dot_uvw hf, uvw_cubeXYZ hf]
    unfold dot
    ring
  constructor
  · rintro ⟨u, v, P, hu, hv, hP, h0⟩
    rw [cubeXYZ_eq hf] at hP
    obtain rfl := Option.some.inj hP
    rw [hd] at h0
    rw [show (uvw f N).z = -((uvw f N).x * u + (uvw f N).y * v) by linarith, abs_neg]
    refine (abs_add_le _ _).trans (add_le_add ?_ ?_)
    · rw [abs_mul]
      exact mul_le_of_le_one_right (abs_nonneg _) hu
    · rw [abs_mul]
      exact mul_le_of_le_one_right (abs_nonneg _) hv
  · intro h
    by_cases h0 : (uvw f N).x ≠ 0 ∨ (uvw f N).y ≠ 0
    · have hX := exit_ok (neg := fun x => decide (x < 0)) (fun x _ => rfl) h h0
      exact ⟨_, _, _, hX.x_le, hX.y_le, cubeXYZ_eq hf _ _, by rw [hd]; exact hX.line⟩
    · rw [not_or, not_not, not_not] at h0
      rw [h0.1, h0.2, abs_zero, add_zero] at h
      refine ⟨0, 0, _, by simp, by simp, cubeXYZ_eq hf _ _, ?_⟩
      rw [hd, h0.1, h0.2, abs_eq_zero.mp (le_antisymm h (abs_nonneg _))]
      ring

/-- The loop, for any normal: it ends at the face `g` if the line meets both faces. -/
theorem c114_loop {neg : ℝ → Bool} (hneg : SignBit neg) {N : Vec ℝ} (hN : VecF64 N) (h0 : ¬ IsZero N) {f g : Nat} (hf : f < 6) (hg : g < 6)
    (hIf : LineMeets f N) (hIg : LineMeets g N) {sa sb : R2.Point ℝ} (ha : InFace sa) (hb : InFace sb) (x : R2.Point ℝ) :
    ∃ segs, segmentLoop rne neg N g sb f ⟨f, sa, x⟩ = some segs ∧ Segments N f sa g sb segs := by
  obtain ⟨fs, q1, q2, q3, q4, q5⟩ := walk_exists hneg h0 hf hg ((lineMeets_iff hf N).1 hIf) ((lineMeets_iff hg N).1 hIg)
  obtain ⟨segs, k1, k2, k3, k4, k5, k6, k7⟩ := loop_round hneg hN hg hb fs f ⟨f, sa, x⟩ q1 q2 q4 q5 q3 rfl ha
  refine ⟨segs, k1, by rw [k2]; exact q3, ?_, by rw [k2]; exact q1, by rw [k2]; exact q2, k5, k6, k3, k4, k7, ?_⟩
  · have h1 : fs.toFinset ⊆ Finset.range 6 := by
      intro y hy
      rw [List.mem_toFinset] at hy
      exact Finset.mem_range.mpr (q4 y hy).1
    have h2 := Finset.card_le_card h1
    rw [List.toFinset_card_of_nodup q3, Finset.card_range, ← k2, List.length_map] at h2
    exact h2
  · intro s hs
    have hm : s.face ∈ fs := by
      rw [← k2]
      exact List.mem_map_of_mem hs
    obtain ⟨m1, m2, -⟩ := q4 _ hm
    exact (lineMeets_iff m1 N).2 m2

theorem pointCross_f64 (sqrt : ℝ → ℝ) (a b : Vec ℝ) : VecF64 (Vec.pointCross rne sqrt a b) := by
  have hc : ∀ p q : Vec ℝ, VecF64 (Vec.cross rne p q) := fun p q => ⟨isF64_rne _, isF64_rne _, isF64_rne _⟩
  have hn : ∀ p : Vec ℝ, VecF64 (Vec.normalize rne sqrt p) := by
    intro p
    unfold Vec.normalize
    split_ifs with h
    · obtain ⟨h1, h2, h3⟩ := h
      refine ⟨?_, ?_, ?_⟩
      · rw [h1]; exact isF64_zero
      · rw [h2]; exact isF64_zero
      · rw [h3]; exact isF64_zero
    · exact ⟨isF64_rne _, isF64_rne _, isF64_rne _⟩
  unfold Vec.pointCross
  simp only
  split_ifs
  · unfold Vec.ortho
    first | exact hn _ | (simp only; exact hn _)
  · exact hc _ _

/-- **C114.** `face_segments` with rounding: if the line with the computed normal meets the two faces that `move_origin_to_valid_face` chooses, the
function returns, and every face occurs at most once. -/
theorem c114_segments (sqrt : ℝ → ℝ) {neg : ℝ → Bool} (hneg : SignBit neg) (sqrt2 : ℝ) {a b : Vec ℝ} {f0 g0 f g : Nat} {pa pb sa sb : R2.Point ℝ}
    (ha : xyzToFaceUV rne a = some (f0, pa.x, pa.y)) (hb : xyzToFaceUV rne b = some (g0, pb.x, pb.y)) (hfg : f0 ≠ g0)
    (hma : moveOrigin rne sqrt neg sqrt2 f0 a (Vec.pointCross rne sqrt a b) pa = some (f, sa))
    (hmb : moveOrigin rne sqrt neg sqrt2 g0 b ((Vec.pointCross rne sqrt a b).scale rne (-1)) pb = some (g, sb))
    (h0 : ¬ IsZero (Vec.pointCross rne sqrt a b)) (hf : f < 6) (hg : g < 6) (hsa : InFace sa) (hsb : InFace sb)
    (hIf : LineMeets f (Vec.pointCross rne sqrt a b)) (hIg : LineMeets g (Vec.pointCross rne sqrt a b)) :
    ∃ segs, faceSegments rne sqrt neg sqrt2 a b = some segs ∧ Segments (Vec.pointCross rne sqrt a b) f sa g sb segs := by
  obtain ⟨segs, h1, h2⟩ := c114_loop hneg (pointCross_f64 sqrt a b) h0 hf hg hIf hIg hsa hsb sb
  refine ⟨segs, ?_, h2⟩
  unfold faceSegments
  simp only [ha, hb, Option.bind_eq_bind, Option.bind_some]
  rw [if_neg hfg]
  have e1 : (⟨pa.x, pa.y⟩ : R2.Point ℝ) = pa := rfl
  have e2 : (⟨pb.x, pb.y⟩ : R2.Point ℝ) = pb := rfl
  rw [e1, e2, hma, Option.bind_some, hmb, Option.bind_some]
  exact h1

/-! ## The accuracy of the normal -/

theorem prod_round {x y X Y : ℝ} (hx : |x - X| ≤ 1 / 2 ^ 53 * |X|) (hy : |y - Y| ≤ 1 / 2 ^ 53 * |Y|) (hX : |X| ≤ 4) (hY : |Y| ≤ 4) :
    |rne (x * y) - X * Y| ≤ 3005 / 1000 / 2 ^ 53 * (|X| * |Y|) + 1 / 2 ^ 1075 := by
  have x1 : |x| ≤ (1 + 1 / 2 ^ 53) * |X| := by
    have := abs_sub_abs_le_abs_sub x X
    linarith
  have y1 : |y| ≤ (1 + 1 / 2 ^ 53) * |Y| := by
    have := abs_sub_abs_le_abs_sub y Y
    linarith
  have a0 := abs_nonneg X
  have b0 := abs_nonneg Y
  have hxy : |x * y| ≤ (1 + 1 / 2 ^ 53) * |X| * ((1 + 1 / 2 ^ 53) * |Y|) := by
    rw [abs_mul]
    exact mul_le_mul x1 y1 (abs_nonneg _) (by positivity)
  have hr := rounding_rne (K := ℝ) (x * y) (by
    refine hxy.trans ?_
    calc (1 + 1 / 2 ^ 53) * |X| * ((1 + 1 / 2 ^ 53) * |Y|) ≤ (2 * 4) * (2 * 4) :=
          mul_le_mul (mul_le_mul (by norm_num) hX a0 (by norm_num)) (mul_le_mul (by norm_num) hY b0 (by norm_num)) (by positivity) (by norm_num)
      _ = 2 ^ 6 := by norm_num
      _ ≤ 2 ^ 1023 := pow_le_pow_right₀ (by norm_num) (by norm_num))
  have hd : |x * y - X * Y| ≤ (1 + 1 / 2 ^ 53) * |X| * (1 / 2 ^ 53 * |Y|) + 1 / 2 ^ 53 * |X| * |Y| := by
    rw [show x * y - X * Y = x * (y - Y) + (x - X) * Y by ring]
    refine (abs_add_le _ _).trans (add_le_add ?_ ?_)
    · rw [abs_mul]
      exact mul_le_mul x1 hy (abs_nonneg _) (by positivity)
    · rw [abs_mul]
      exact mul_le_mul_of_nonneg_right hx b0
  have htri : |rne (x * y) - X * Y| ≤ |rne (x * y) - x * y| + |x * y - X * Y| := abs_sub_le _ _ _
  have hm : 0 ≤ |X| * |Y| := mul_nonneg a0 b0
  generalize (1 : ℝ) / 2 ^ 1075 = η at *
  nlinarith

theorem comp_round {sy dz sz dy Sy Dz Sz Dy : ℝ} (h1 : |sy - Sy| ≤ 1 / 2 ^ 53 * |Sy|) (h2 : |dz - Dz| ≤ 1 / 2 ^ 53 * |Dz|)
    (h3 : |sz - Sz| ≤ 1 / 2 ^ 53 * |Sz|) (h4 : |dy - Dy| ≤ 1 / 2 ^ 53 * |Dy|) (b1 : |Sy| ≤ 4) (b2 : |Dz| ≤ 4) (b3 : |Sz| ≤ 4) (b4 : |Dy| ≤ 4) :
    |rne (rne (sy * dz) - rne (sz * dy)) - (Sy * Dz - Sz * Dy)| ≤
      301 / 100 / 2 ^ 53 * (|Sy| * |Dz| + |Sz| * |Dy|) + 1 / 2 ^ 53 * |Sy * Dz - Sz * Dy| + 3 * (1 / 2 ^ 1075) := by
  have p1 := prod_round h1 h2 b1 b2
  have p2 := prod_round h3 h4 b3 b4
  have hs := sum_rel (isF64_rne (sy * dz)) (isF64_neg (isF64_rne (sz * dy)))
  rw [← sub_eq_add_neg] at hs
  have m1 : 0 ≤ |Sy| * |Dz| := by positivity
  have m2 : 0 ≤ |Sz| * |Dy| := by positivity
  have hη : (0 : ℝ) ≤ 1 / 2 ^ 1075 := by positivity
  have t1 : |(rne (sy * dz) - rne (sz * dy)) - (Sy * Dz - Sz * Dy)| ≤ |rne (sy * dz) - Sy * Dz| + |rne (sz * dy) - Sz * Dy| := by
    rw [show (rne (sy * dz) - rne (sz * dy)) - (Sy * Dz - Sz * Dy) = (rne (sy * dz) - Sy * Dz) - (rne (sz * dy) - Sz * Dy) by ring]
    exact abs_sub _ _
  have t2 := abs_sub_abs_le_abs_sub (rne (sy * dz) - rne (sz * dy)) (Sy * Dz - Sz * Dy)
  have t3 := abs_sub_le (rne (rne (sy * dz) - rne (sz * dy))) (rne (sy * dz) - rne (sz * dy)) (Sy * Dz - Sz * Dy)
  have t4 := abs_nonneg (Sy * Dz - Sz * Dy)
  generalize (1 : ℝ) / 2 ^ 1075 = η at *
  nlinarith

/-- The permanent of the absolute values. -/
theorem perm_sq (p q : Vec ℝ) : 3 * ((|p.y| * |q.z| + |p.z| * |q.y|) ^ 2 + (|p.z| * |q.x| + |p.x| * |q.z|) ^ 2 + (|p.x| * |q.y| + |p.y| * |q.x|) ^ 2) ≤
    4 * (dot p p * dot q q) := by
  have e : ∀ x : ℝ, x * x = |x| * |x| := fun x => (abs_mul_abs_self x).symm
  unfold dot
  rw [e p.x, e p.y, e p.z, e q.x, e q.y, e q.z]
  generalize |p.x| = a
  generalize |p.y| = b
  generalize |p.z| = c
  generalize |q.x| = d
  generalize |q.y| = f
  generalize |q.z| = g
  nlinarith [sq_nonneg (a * f - b * d), sq_nonneg (b * g - c * f), sq_nonneg (c * d - a * g), sq_nonneg (a * d - b * f), sq_nonneg (b * f - c * g),
    sq_nonneg (c * g - a * d)]

theorem cauchy3 (a b c d e f : ℝ) : (a * d + b * e + c * f) ^ 2 ≤ (a ^ 2 + b ^ 2 + c ^ 2) * (d ^ 2 + e ^ 2 + f ^ 2) := by
  nlinarith [sq_nonneg (a * e - b * d), sq_nonneg (b * f - c * e), sq_nonneg (c * d - a * f)]

/-- The computed normal of two points that are not almost equal or opposite, in terms of the exact one. -/
theorem normal_acc {a b : Vec ℝ} (ha : VecF64 a) (hb : VecF64 b) (la : dot a a ≤ 4) (lb : dot b b ≤ 4) {S D M N : Vec ℝ}
    (hS : S = ⟨a.x + b.x, a.y + b.y, a.z + b.z⟩) (hD : D = ⟨b.x - a.x, b.y - a.y, b.z - a.z⟩) (hM : M = cross S D)
    (hNdef : N = Vec.cross rne (Vec.add rne a b) (Vec.sub rne b a)) :
    |N.x - M.x| ≤ 301 / 100 / 2 ^ 53 * (|S.y| * |D.z| + |S.z| * |D.y|) + 1 / 2 ^ 53 * |M.x| + 3 * (1 / 2 ^ 1075) ∧
    |N.y - M.y| ≤ 301 / 100 / 2 ^ 53 * (|S.z| * |D.x| + |S.x| * |D.z|) + 1 / 2 ^ 53 * |M.y| + 3 * (1 / 2 ^ 1075) ∧
    |N.z - M.z| ≤ 301 / 100 / 2 ^ 53 * (|S.x| * |D.y| + |S.y| * |D.x|) + 1 / 2 ^ 53 * |M.z| + 3 * (1 / 2 ^ 1075) := by
  have sm : ∀ x y : ℝ, x * x ≤ 4 → y * y ≤ 4 → |x + y| ≤ 4 ∧ |y - x| ≤ 4 := by
    intro x y hx hy
    have h1 : |x| ≤ 2 := abs_le_of_sq_le_sq (by linarith) (by norm_num)
    have h2 : |y| ≤ 2 := abs_le_of_sq_le_sq (by linarith) (by norm_num)
    have := abs_add_le x y
    have := abs_sub y x
    constructor <;> linarith
  have df : ∀ x y : ℝ, IsF64 x → IsF64 y → |rne (x - y) - (x - y)| ≤ 1 / 2 ^ 53 * |x - y| := by
    intro x y hx hy
    have := sum_rel hx (isF64_neg hy)
    rwa [← sub_eq_add_neg] at this
  unfold dot at la lb
  obtain ⟨bx1, bx2⟩ := sm a.x b.x (by nlinarith [mul_self_nonneg a.y, mul_self_nonneg a.z]) (by nlinarith [mul_self_nonneg b.y, mul_self_nonneg b.z])
  obtain ⟨by1, by2⟩ := sm a.y b.y (by nlinarith [mul_self_nonneg a.x, mul_self_nonneg a.z]) (by nlinarith [mul_self_nonneg b.x, mul_self_nonneg b.z])
  obtain ⟨bz1, bz2⟩ := sm a.z b.z (by nlinarith [mul_self_nonneg a.x, mul_self_nonneg a.y]) (by nlinarith [mul_self_nonneg b.x, mul_self_nonneg b.y])
  have sx := sum_rel ha.1 hb.1
  have sy := sum_rel ha.2.1 hb.2.1
  have sz := sum_rel ha.2.2 hb.2.2
  have dx := df _ _ hb.1 ha.1
  have dy := df _ _ hb.2.1 ha.2.1
  have dz := df _ _ hb.2.2 ha.2.2
  subst hS hD hM hNdef
  exact ⟨comp_round sy dz sz dy by1 bz2 bz1 by2, comp_round sz dx sx dz bz1 bx2 bx1 bz2, comp_round sx dy sy dx bx1 by2 by1 bx2⟩

/-- A line that passes near a point well inside a face meets the face. -/
theorem meets_core {n p : Vec ℝ} {Q : ℝ} (hz : 0 < p.z) (hQp : 0 < Q) (hu : |p.x| ≤ (1 - 1 / 2 ^ 49) * p.z) (hv : |p.y| ≤ (1 - 1 / 2 ^ 49) * p.z)
    (hd : |dot n p| ≤ 78 / 10 / 2 ^ 53 * (p.z * Q)) (hNN : 49 / 100 * Q ^ 2 ≤ dot n n) : |n.z| ≤ |n.x| + |n.y| := by
  have Q0 := hQp.le
  obtain ⟨z, hzz⟩ : ∃ z, z = p.z := ⟨_, rfl⟩
  rw [← hzz] at hz hu hv hd
  by_contra hlt
  rw [not_le] at hlt
  obtain ⟨L, hL⟩ : ∃ L, L = |n.x| + |n.y| := ⟨_, rfl⟩
  rw [← hL] at hlt
  have L0 : 0 ≤ L := by rw [hL]; positivity
  have e1 : n.z * z = dot n p - (n.x * p.x + n.y * p.y) := by
    unfold dot
    rw [hzz]
    ring
  have e2 : |n.z| * z ≤ 78 / 10 / 2 ^ 53 * (z * Q) + L * ((1 - 1 / 2 ^ 49) * z) := by
    have : |n.z| * z = |n.z * z| := by rw [abs_mul, abs_of_pos hz]
    rw [this, e1]
    have t1 := abs_sub (dot n p) (n.x * p.x + n.y * p.y)
    have t2 := abs_add_le (n.x * p.x) (n.y * p.y)
    have t3 : |n.x * p.x| ≤ |n.x| * ((1 - 1 / 2 ^ 49) * z) := by
      rw [abs_mul]
      exact mul_le_mul_of_nonneg_left hu (abs_nonneg _)
    have t4 : |n.y * p.y| ≤ |n.y| * ((1 - 1 / 2 ^ 49) * z) := by
      rw [abs_mul]
      exact mul_le_mul_of_nonneg_left hv (abs_nonneg _)
    rw [hL, add_mul]
    linarith
  have e3 : |n.z| ≤ 78 / 10 / 2 ^ 53 * Q + L * (1 - 1 / 2 ^ 49) := by
    have : |n.z| * z ≤ (78 / 10 / 2 ^ 53 * Q + L * (1 - 1 / 2 ^ 49)) * z := by linarith
    exact le_of_mul_le_mul_right this hz
  have e4 : L ≤ 78 / 160 * Q := by
    linarith
  have e5 : |n.z| ≤ 4876 / 10000 * Q := by
    have : L * (1 - 1 / 2 ^ 49) ≤ L := by
      have : (0 : ℝ) ≤ 1 / 2 ^ 49 := by positivity
      nlinarith
    linarith
  have e6 : dot n n ≤ L ^ 2 + |n.z| ^ 2 := by
    unfold dot
    rw [hL, sq_abs]
    have := mul_nonneg (abs_nonneg n.x) (abs_nonneg n.y)
    have h1 := abs_mul_abs_self n.x
    have h2 := abs_mul_abs_self n.y
    nlinarith
  have e7 : L ^ 2 ≤ (78 / 160 * Q) ^ 2 := pow_le_pow_left₀ L0 e4 2
  have e8 : |n.z| ^ 2 ≤ (4876 / 10000 * Q) ^ 2 := pow_le_pow_left₀ (abs_nonneg _) e5 2
  nlinarith [mul_pos hQp hQp]

theorem sum3_le {n1 n2 n3 m1 m2 m3 p1 p2 p3 B1 B2 B3 η Q z : ℝ} (hη : η ≤ 1 / 2 ^ 75 * Q) (c1 : 0 ≤ B1) (η0 : 0 ≤ η) (z0 : 0 ≤ z) (Q0 : 0 ≤ Q)
    (eX : |n1 - m1| ≤ 301 / 100 / 2 ^ 53 * B1 + 1 / 2 ^ 53 * |m1| + 3 * η) (eY : |n2 - m2| ≤ 301 / 100 / 2 ^ 53 * B2 + 1 / 2 ^ 53 * |m2| + 3 * η)
    (eZ : |n3 - m3| ≤ 301 / 100 / 2 ^ 53 * B3 + 1 / 2 ^ 53 * |m3| + 3 * η) (s1 : |p1| * B1 + |p2| * B2 + |p3| * B3 ≤ 2 * (z * Q))
    (s2 : |p1| * |m1| + |p2| * |m2| + |p3| * |m3| ≤ 7 / 4 * (z * Q)) (s3 : |p1| + |p2| + |p3| ≤ 3 * z) :
    |(n1 - m1) * p1 + (n2 - m2) * p2 + (n3 - m3) * p3| ≤ 78 / 10 / 2 ^ 53 * (z * Q) := by
  have k1 : |(n1 - m1) * p1| ≤ |p1| * (301 / 100 / 2 ^ 53 * B1 + 1 / 2 ^ 53 * |m1| + 3 * η) := by
    rw [abs_mul, mul_comm]
    exact mul_le_mul_of_nonneg_left eX (abs_nonneg _)
  have k2 : |(n2 - m2) * p2| ≤ |p2| * (301 / 100 / 2 ^ 53 * B2 + 1 / 2 ^ 53 * |m2| + 3 * η) := by
    rw [abs_mul, mul_comm]
    exact mul_le_mul_of_nonneg_left eY (abs_nonneg _)
  have k3 : |(n3 - m3) * p3| ≤ |p3| * (301 / 100 / 2 ^ 53 * B3 + 1 / 2 ^ 53 * |m3| + 3 * η) := by
    rw [abs_mul, mul_comm]
    exact mul_le_mul_of_nonneg_left eZ (abs_nonneg _)
  have k4 := abs_add_le ((n1 - m1) * p1 + (n2 - m2) * p2) ((n3 - m3) * p3)
  have k5 := abs_add_le ((n1 - m1) * p1) ((n2 - m2) * p2)
  have k6 : 3 * η * (|p1| + |p2| + |p3|) ≤ 9 / 2 ^ 75 * (z * Q) := by
    calc 3 * η * (|p1| + |p2| + |p3|) ≤ 3 * (1 / 2 ^ 75 * Q) * (3 * z) :=
          mul_le_mul (by linarith) s3 (by positivity) (by positivity)
      _ = _ := by ring
  have k7 : |p1| * (301 / 100 / 2 ^ 53 * B1 + 1 / 2 ^ 53 * |m1| + 3 * η) + |p2| * (301 / 100 / 2 ^ 53 * B2 + 1 / 2 ^ 53 * |m2| + 3 * η) +
      |p3| * (301 / 100 / 2 ^ 53 * B3 + 1 / 2 ^ 53 * |m3| + 3 * η) =
      301 / 100 / 2 ^ 53 * (|p1| * B1 + |p2| * B2 + |p3| * B3) + 1 / 2 ^ 53 * (|p1| * |m1| + |p2| * |m2| + |p3| * |m3|) +
      3 * η * (|p1| + |p2| + |p3|) := by ring
  have k8 := k4.trans (add_le_add_left k5 _)
  have k9 := k8.trans ((add_le_add (add_le_add k1 k2) k3).trans k7.le)
  refine k9.trans ?_
  have zQ : 0 ≤ z * Q := mul_nonneg z0 Q0
  clear k1 k2 k3 k4 k5 k7 k8 k9 eX eY eZ s3 hη
  generalize |p1| * B1 + |p2| * B2 + |p3| * B3 = A at *
  generalize |p1| * |m1| + |p2| * |m2| + |p3| * |m3| = B at *
  generalize 3 * η * (|p1| + |p2| + |p3|) = C at *
  linarith

/-- The line with the computed normal passes near the endpoints. -/
theorem normal_dist {M N P : Vec ℝ} {Q B1 B2 B3 η : ℝ} {f : Nat} (hQp : 0 < Q) (hη : η ≤ 1 / 2 ^ 75 * Q) (η0 : 0 ≤ η) (c1 : 0 ≤ B1) (c2 : 0 ≤ B2)
    (c3 : 0 ≤ B3) (hB : B1 ^ 2 + B2 ^ 2 + B3 ^ 2 ≤ 4 / 3 * Q ^ 2) (hM2 : M.x ^ 2 + M.y ^ 2 + M.z ^ 2 ≤ Q ^ 2)
    (eX : |N.x - M.x| ≤ 301 / 100 / 2 ^ 53 * B1 + 1 / 2 ^ 53 * |M.x| + 3 * η) (eY : |N.y - M.y| ≤ 301 / 100 / 2 ^ 53 * B2 + 1 / 2 ^ 53 * |M.y| + 3 * η)
    (eZ : |N.z - M.z| ≤ 301 / 100 / 2 ^ 53 * B3 + 1 / 2 ^ 53 * |M.z| + 3 * η) (hNN : 49 / 100 * Q ^ 2 ≤ dot N N) (hMP : dot M P = 0)
    (hW : WellInside f P) : LineMeets f N := by
  obtain ⟨hf, hz, hu, hv⟩ := hW
  have Q0 := hQp.le
  rw [lineMeets_iff hf]
  have hPP : dot P P ≤ 3 * (uvw f P).z ^ 2 := by
    rw [← dot_uvw hf]
    unfold dot
    have h1 : (1 - 1 / 2 ^ 49) * (uvw f P).z ≤ (uvw f P).z := by
      have : (0 : ℝ) ≤ 1 / 2 ^ 49 := by positivity
      nlinarith
    have h2 := abs_le.mp (hu.trans h1)
    have h3 := abs_le.mp (hv.trans h1)
    nlinarith
  have hδ : dot (uvw f N) (uvw f P) = (N.x - M.x) * P.x + (N.y - M.y) * P.y + (N.z - M.z) * P.z := by
    rw [dot_uvw hf]
    have : dot N P = dot N P - dot M P := by rw [hMP, sub_zero]
    rw [this]
    unfold dot
    ring
  rw [← dot_uvw hf] at hNN
  have eP : dot P P = |P.x| ^ 2 + |P.y| ^ 2 + |P.z| ^ 2 := by
    rw [sq_abs, sq_abs, sq_abs]
    unfold dot
    ring
  rw [eP] at hPP
  generalize hzz : (uvw f P).z = z at *
  have zQ : 0 ≤ z * Q := mul_nonneg hz.le Q0
  -- the three sums
  have s1 : |P.x| * B1 + |P.y| * B2 + |P.z| * B3 ≤ 2 * (z * Q) := by
    refine abs_le_of_sq_le_sq' ?_ (by linarith) |>.2
    refine (cauchy3 _ _ _ _ _ _).trans ?_
    calc _ ≤ 3 * z ^ 2 * (4 / 3 * Q ^ 2) := mul_le_mul hPP hB (by positivity) (by positivity)
      _ = _ := by ring
  have s2 : |P.x| * |M.x| + |P.y| * |M.y| + |P.z| * |M.z| ≤ 7 / 4 * (z * Q) := by
    refine abs_le_of_sq_le_sq' ?_ (by linarith) |>.2
    refine (cauchy3 _ _ _ _ _ _).trans ?_
    rw [sq_abs M.x, sq_abs M.y, sq_abs M.z]
    calc _ ≤ 3 * z ^ 2 * Q ^ 2 := mul_le_mul hPP hM2 (by positivity) (by positivity)
      _ ≤ _ := by nlinarith [mul_nonneg (sq_nonneg z) (sq_nonneg Q)]
  have s3 : |P.x| + |P.y| + |P.z| ≤ 3 * z := by
    refine abs_le_of_sq_le_sq' ?_ (by linarith) |>.2
    nlinarith [sq_nonneg (|P.x| - |P.y|), sq_nonneg (|P.y| - |P.z|), sq_nonneg (|P.z| - |P.x|)]
  have hd : |dot (uvw f N) (uvw f P)| ≤ 78 / 10 / 2 ^ 53 * (z * Q) := by
    rw [hδ]
    exact sum3_le hη c1 η0 hz.le hQp.le eX eY eZ s1 s2 s3
  rw [← hzz] at hz hd hu hv
  exact meets_core hz hQp hu hv hd hNN


/-- The computed normal is large, and the line with this normal meets every face in which an endpoint is well inside. -/
theorem normal_meets {a b : Vec ℝ} (ha : VecF64 a) (hb : VecF64 b) (la : dot a a ≤ 4) (lb : dot b b ≤ 4) {S D M N : Vec ℝ}
    (hS : S = ⟨a.x + b.x, a.y + b.y, a.z + b.z⟩) (hD : D = ⟨b.x - a.x, b.y - a.y, b.z - a.z⟩) (hM : M = cross S D)
    (hNdef : N = Vec.cross rne (Vec.add rne a b) (Vec.sub rne b a))
    (s0 : 1 / 2 ^ 1000 ≤ dot S S) (d0 : 1 / 2 ^ 1000 ≤ dot D D) (hlen : 2 * (dot b b - dot a a) ^ 2 ≤ dot S S * dot D D) :
    ¬ IsZero N ∧ ∀ f P, P = a ∨ P = b → WellInside f P → LineMeets f N := by
  obtain ⟨eX, eY, eZ⟩ := normal_acc ha hb la lb hS hD hM hNdef
  have hSD : dot S D = dot b b - dot a a := by
    rw [hS, hD]
    simp only [dot]
    ring
  have hMM : dot M M = dot S S * dot D D - (dot b b - dot a a) ^ 2 := by
    have hDS : dot D S = dot S D := by unfold dot; ring
    rw [hM, binet, hDS, hSD]
    ring
  have hMa : dot M a = 0 := by rw [hM, hS, hD]; simp only [dot, cross]; ring
  have hMb : dot M b = 0 := by rw [hM, hS, hD]; simp only [dot, cross]; ring
  have hperm := perm_sq S D
  obtain ⟨Q, Q0, hQ⟩ : ∃ Q : ℝ, 0 ≤ Q ∧ Q * Q = dot S S * dot D D :=
    ⟨Real.sqrt (dot S S * dot D D), Real.sqrt_nonneg _, Real.mul_self_sqrt (mul_nonneg (le_trans (by positivity) s0) (le_trans (by positivity) d0))⟩
  have hQ1 : 1 / 2 ^ 1000 ≤ Q := by
    refine (abs_le_of_sq_le_sq' ?_ Q0).2
    rw [pow_two Q, hQ, pow_two]
    exact mul_le_mul s0 d0 (by positivity) (le_trans (by positivity) s0)
  have hη : 1 / 2 ^ 1075 ≤ 1 / 2 ^ 75 * Q := by
    have e : (1 : ℝ) / 2 ^ 1075 = 1 / 2 ^ 75 * (1 / 2 ^ 1000) := by
      rw [div_mul_div_comm, one_mul, ← pow_add]
    rw [e]
    exact mul_le_mul_of_nonneg_left hQ1 (by positivity)
  have hQp : 0 < Q := lt_of_lt_of_le (by positivity) hQ1
  rw [← hQ] at hMM hperm hlen
  clear s0 d0 hQ hQ1 hSD hS hD hM hNdef ha hb
  have η0 : (0 : ℝ) ≤ 1 / 2 ^ 1075 := by positivity
  generalize (1 : ℝ) / 2 ^ 1075 = η at *
  have hM2 : M.x ^ 2 + M.y ^ 2 + M.z ^ 2 ≤ Q ^ 2 := by
    have := sq_nonneg (dot b b - dot a a)
    have e : dot M M = M.x ^ 2 + M.y ^ 2 + M.z ^ 2 := by unfold dot; ring
    rw [← e, hMM]
    linarith
  have hM3 : Q ^ 2 ≤ 2 * (M.x ^ 2 + M.y ^ 2 + M.z ^ 2) := by
    have e : dot M M = M.x ^ 2 + M.y ^ 2 + M.z ^ 2 := by unfold dot; ring
    rw [← e, hMM]
    linarith
  have small : ∀ x : ℝ, x ^ 2 ≤ Q ^ 2 → |x| ≤ Q := fun x h => abs_le_of_sq_le_sq h Q0
  have mx := small M.x (by linarith [sq_nonneg M.y, sq_nonneg M.z])
  have my := small M.y (by linarith [sq_nonneg M.x, sq_nonneg M.z])
  have mz := small M.z (by linarith [sq_nonneg M.x, sq_nonneg M.y])
  have c1 : 0 ≤ |S.y| * |D.z| + |S.z| * |D.y| := by positivity
  have c2 : 0 ≤ |S.z| * |D.x| + |S.x| * |D.z| := by positivity
  have c3 : 0 ≤ |S.x| * |D.y| + |S.y| * |D.x| := by positivity
  generalize |S.y| * |D.z| + |S.z| * |D.y| = B1 at *
  generalize |S.z| * |D.x| + |S.x| * |D.z| = B2 at *
  generalize |S.x| * |D.y| + |S.y| * |D.x| = B3 at *
  have hB : B1 ^ 2 + B2 ^ 2 + B3 ^ 2 ≤ 4 / 3 * Q ^ 2 := by linarith
  have sB : ∀ x : ℝ, 0 ≤ x → x ^ 2 ≤ 4 / 3 * Q ^ 2 → x ≤ 2 * Q := by
    intro x hx h
    refine (abs_le_of_sq_le_sq' ?_ (by linarith)).2
    nlinarith
  have b1 := sB B1 c1 (by linarith [sq_nonneg B2, sq_nonneg B3])
  have b2 := sB B2 c2 (by linarith [sq_nonneg B1, sq_nonneg B3])
  have b3 := sB B3 c3 (by linarith [sq_nonneg B1, sq_nonneg B2])
  have tot : ∀ e B m : ℝ, |e| ≤ 301 / 100 / 2 ^ 53 * B + 1 / 2 ^ 53 * |m| + 3 * η → B ≤ 2 * Q → |m| ≤ Q → |e| ≤ 1 / 2 ^ 49 * Q := by
    intro e B m h1 h2 h3
    linarith
  have tX := tot _ _ _ eX b1 mx
  have tY := tot _ _ _ eY b2 my
  have tZ := tot _ _ _ eZ b3 mz
  -- the length of the normal
  have low : ∀ n m : ℝ, |n - m| ≤ 1 / 2 ^ 49 * Q → |m| ≤ Q → m ^ 2 - 1 / 2 ^ 48 * Q ^ 2 ≤ n ^ 2 := by
    intro n m h1 h2
    rw [abs_le] at h1 h2
    have h3 : |(n - m) * m| ≤ 1 / 2 ^ 49 * Q * Q := by
      rw [abs_mul]
      exact mul_le_mul (abs_le.mpr h1) (abs_le.mpr h2) (abs_nonneg _) (by positivity)
    have h4 := neg_le_of_abs_le h3
    nlinarith [sq_nonneg (n - m)]
  have l1 := low _ _ tX mx
  have l2 := low _ _ tY my
  have l3 := low _ _ tZ mz
  have hNN : 49 / 100 * Q ^ 2 ≤ dot N N := by
    have e : dot N N = N.x ^ 2 + N.y ^ 2 + N.z ^ 2 := by unfold dot; ring
    rw [e]
    linarith [sq_nonneg Q]
  refine ⟨?_, ?_⟩
  · rintro ⟨z1, z2, z3⟩
    unfold dot at hNN
    rw [z1, z2, z3] at hNN
    nlinarith [mul_pos hQp hQp]
  · rintro f P hP hW
    have hMP : dot M P = 0 := by rcases hP with rfl | rfl <;> assumption
    exact normal_dist hQp hη η0 c1 c2 c3 hB hM2 eX eY eZ hNN hMP hW

theorem wellInside_face {f : Nat} {P : Vec ℝ} (h : WellInside f P) : vecFace P = f := by
  obtain ⟨hf, hz, hu, hv⟩ := h
  have hP : ¬ IsZero P := by
    rintro ⟨z1, z2, z3⟩
    have h1 : dot (uvw f P) (uvw f P) = 0 := by
      rw [dot_uvw hf]
      unfold dot
      rw [z1, z2, z3]
      ring
    unfold dot at h1
    nlinarith [mul_self_nonneg (uvw f P).x, mul_self_nonneg (uvw f P).y, mul_pos hz hz]
  obtain ⟨l6, hc⟩ := vecFace_cone hP
  have hmax := cone_max l6 hf hc
  have lt : (1 - 1 / 2 ^ 49) * (uvw f P).z < (uvw f P).z := by
    have : (0 : ℝ) < 1 / 2 ^ 49 := by positivity
    nlinarith
  have h1 := abs_lt.mp (hu.trans_lt lt)
  have h2 := abs_lt.mp (hv.trans_lt lt)
  by_contra hne
  obtain ⟨a, b, c, d, -, -, -, -, -, -, -, -, wa, wb, wc, wd, hall⟩ := nbr_spec hf
  rcases hall _ l6 hne with h | h | h | h | h
  · rw [h, wa] at hmax; linarith
  · rw [h, wb] at hmax; linarith
  · rw [h, wc] at hmax; linarith
  · rw [h, wd] at hmax; linarith
  · rw [h] at hmax; linarith

theorem uv_eq {f : Nat} (hf : f < 6) (P : Vec ℝ) :
    validFaceXYZtoUV rne f P = some (rne ((uvw f P).x / (uvw f P).z), rne ((uvw f P).y / (uvw f P).z)) := by
  interval_cases f <;> simp only [validFaceXYZtoUV, uvw, neg_div_neg_eq] <;> simp only [div_neg, neg_div]

theorem project_round {f : Nat} {P : Vec ℝ} (h : WellInside f P) :
    xyzToFaceUV rne P = some (f, rne ((uvw f P).x / (uvw f P).z), rne ((uvw f P).y / (uvw f P).z)) ∧
    |rne ((uvw f P).x / (uvw f P).z)| ≤ 1 - 1 / 2 ^ 49 ∧ |rne ((uvw f P).y / (uvw f P).z)| ≤ 1 - 1 / 2 ^ 49 := by
  have hv := wellInside_face h
  obtain ⟨hf, hz, h1, h2⟩ := h
  have hm : rne (1 - 1 / 2 ^ 49 : ℝ) = 1 - 1 / 2 ^ 49 := rne_exact (m := 2 ^ 49 - 1) (k := -49) (by norm_num) (by norm_num) (by norm_num)
  have key : ∀ x : ℝ, |x| ≤ (1 - 1 / 2 ^ 49) * (uvw f P).z → |rne (x / (uvw f P).z)| ≤ 1 - 1 / 2 ^ 49 := by
    intro x hx
    have hq : |x / (uvw f P).z| ≤ 1 - 1 / 2 ^ 49 := by
      rw [abs_div, abs_of_pos hz, div_le_iff₀ hz]
      exact hx
    rw [abs_le] at hq ⊢
    have k1 := rne_mono hq.1
    have k2 := rne_mono hq.2
    rw [rne_odd, hm] at k1
    rw [hm] at k2
    exact ⟨k1, k2⟩
  refine ⟨?_, key _ h1, key _ h2⟩
  unfold xyzToFaceUV
  simp only [hv, uv_eq hf, Option.bind_eq_bind, Option.bind_some]

/-- The margin of the fast path of `move_origin_to_valid_face`. -/
theorem maxSafe_ge {s2 : ℝ} (h2 : 7 / 5 ≤ s2) : 1 - 1 / 2 ^ 49 ≤ rne (1 - faceClipErrorUVCoord rne s2) := by
  have h1 : rne (1 / s2) ≤ 23 / 32 := by
    have e : rne (23 / 32 : ℝ) = 23 / 32 := rne_exact (m := 23) (k := -5) (by norm_num) (by norm_num) (by norm_num)
    rw [← e]
    refine rne_mono ?_
    rw [div_le_iff₀ (by linarith)]
    linarith
  have h9 : rne (9 * rne (1 / s2)) ≤ 13 / 2 := by
    have e : rne (13 / 2 : ℝ) = 13 / 2 := rne_exact (m := 13) (k := -1) (by norm_num) (by norm_num) (by norm_num)
    rw [← e]
    refine rne_mono ?_
    rw [e] at *
    linarith
  have he : Predicates.dblEpsilon (rne : ℝ → ℝ) ≤ 1 / 2 ^ 52 := by
    have h10 : rne (1 / 2 ^ 52 : ℝ) = 1 / 2 ^ 52 := rne_exact (m := 1) (k := -52) (by norm_num [zpow_neg]) (by norm_num) (by norm_num)
    rw [← h10]
    exact rne_mono (by norm_num)
  have he0 : 0 ≤ Predicates.dblEpsilon (rne : ℝ → ℝ) := rne_nonneg (by norm_num)
  have hc : faceClipErrorUVCoord rne s2 ≤ 1 / 2 ^ 49 := by
    unfold faceClipErrorUVCoord
    have h10 : rne (1 / 2 ^ 49 : ℝ) = 1 / 2 ^ 49 := rne_exact (m := 1) (k := -49) (by norm_num [zpow_neg]) (by norm_num) (by norm_num)
    rw [← h10]
    refine rne_mono ?_
    calc rne (9 * rne (1 / s2)) * Predicates.dblEpsilon rne ≤ 13 / 2 * (1 / 2 ^ 52) := mul_le_mul h9 he he0 (by norm_num)
      _ ≤ 1 / 2 ^ 49 := by norm_num
  have hm : rne (1 - 1 / 2 ^ 49 : ℝ) = 1 - 1 / 2 ^ 49 := rne_exact (m := 2 ^ 49 - 1) (k := -49) (by norm_num) (by norm_num) (by norm_num)
  have := rne_mono (show 1 - 1 / 2 ^ 49 ≤ 1 - faceClipErrorUVCoord rne s2 by linarith)
  rwa [hm] at this

theorem moveOrigin_fast (sqrt : ℝ → ℝ) (neg : ℝ → Bool) {s2 : ℝ} (h2 : 7 / 5 ≤ s2) (f : Nat) (P N : Vec ℝ) {u v : ℝ} (hu : |u| ≤ 1 - 1 / 2 ^ 49)
    (hv : |v| ≤ 1 - 1 / 2 ^ 49) : moveOrigin rne sqrt neg s2 f P N ⟨u, v⟩ = some (f, ⟨u, v⟩) := by
  unfold moveOrigin
  exact if_pos ((max_le hu hv).trans (maxSafe_ge h2))

/-- **C114.** `face_segments` with rounding, for two points that are well inside different faces. The points must not be so close to being opposite
(or equal) that the difference of their lengths, which is only due to rounding, matters: `|b|² - |a|²` may be at most `|a + b| |b - a| / √2`. -/
theorem c114_interior (sqrt : ℝ → ℝ) {neg : ℝ → Bool} (hneg : SignBit neg) {sqrt2 : ℝ} (h2 : 7 / 5 ≤ sqrt2) {a b : Vec ℝ} (ha : VecF64 a)
    (hb : VecF64 b) (la : dot a a ≤ 4) (lb : dot b b ≤ 4) {f g : Nat} (hfa : WellInside f a) (hgb : WellInside g b) (hfg : f ≠ g)
    (s0 : 1 / 2 ^ 1000 ≤ (a.x + b.x) ^ 2 + (a.y + b.y) ^ 2 + (a.z + b.z) ^ 2) (d0 : 1 / 2 ^ 1000 ≤ (b.x - a.x) ^ 2 + (b.y - a.y) ^ 2 + (b.z - a.z) ^ 2)
    (hlen : 2 * (dot b b - dot a a) ^ 2 ≤ ((a.x + b.x) ^ 2 + (a.y + b.y) ^ 2 + (a.z + b.z) ^ 2) * ((b.x - a.x) ^ 2 + (b.y - a.y) ^ 2 + (b.z - a.z) ^ 2)) :
    ∃ segs pa pb, faceSegments rne sqrt neg sqrt2 a b = some segs ∧ xyzToFaceUV rne a = some (f, pa.x, pa.y) ∧ xyzToFaceUV rne b = some (g, pb.x, pb.y) ∧
      Segments (Vec.pointCross rne sqrt a b) f pa g pb segs := by
  obtain ⟨S, hS⟩ : ∃ S : Vec ℝ, S = ⟨a.x + b.x, a.y + b.y, a.z + b.z⟩ := ⟨_, rfl⟩
  obtain ⟨D, hD⟩ : ∃ D : Vec ℝ, D = ⟨b.x - a.x, b.y - a.y, b.z - a.z⟩ := ⟨_, rfl⟩
  have eS : (a.x + b.x) ^ 2 + (a.y + b.y) ^ 2 + (a.z + b.z) ^ 2 = dot S S := by rw [hS]; simp only [dot]; ring
  have eD : (b.x - a.x) ^ 2 + (b.y - a.y) ^ 2 + (b.z - a.z) ^ 2 = dot D D := by rw [hD]; simp only [dot]; ring
  rw [eS] at s0 hlen
  rw [eD] at d0 hlen
  obtain ⟨n0, hm⟩ := normal_meets ha hb la lb hS hD rfl rfl s0 d0 hlen
  have en := pointCross_of sqrt n0
  rw [← en] at n0 hm
  obtain ⟨pa, pa1, pa2⟩ := project_round hfa
  obtain ⟨pb, pb1, pb2⟩ := project_round hgb
  have le1 : (1 : ℝ) - 1 / 2 ^ 49 ≤ 1 := by norm_num
  obtain ⟨segs, k1, k2⟩ := c114_segments sqrt hneg sqrt2 (pa := ⟨_, _⟩) (pb := ⟨_, _⟩) pa pb hfg (moveOrigin_fast sqrt neg h2 f a _ pa1 pa2)
    (moveOrigin_fast sqrt neg h2 g b _ pb1 pb2) n0 hfa.1 hgb.1 ⟨pa1.trans le1, pa2.trans le1⟩ ⟨pb1.trans le1, pb2.trans le1⟩
    (hm f a (Or.inl rfl) hfa) (hm g b (Or.inr rfl) hgb)
  exact ⟨segs, _, _, k1, pa, pb, k2⟩

/-- The hypotheses hold for the centres of two adjacent faces. -/
example : ∃ segs, faceSegments rne Real.sqrt (fun x => decide (x < 0)) (3 / 2) ⟨1, 0, 0⟩ ⟨0, 1, 0⟩ = some segs ∧ 2 ≤ segs.length := by
  have one : IsF64 (1 : ℝ) := rne_one
  have zero : IsF64 (0 : ℝ) := isF64_zero
  have tiny : (1 : ℝ) / 2 ^ 1000 ≤ 1 := div_le_one_of_le₀ (one_le_pow₀ (by norm_num)) (by positivity)
  obtain ⟨segs, pa, pb, h1, h2, h3, h4⟩ := c114_interior Real.sqrt (neg := fun x => decide (x < 0)) (fun x _ => rfl) (sqrt2 := 3 / 2) (by norm_num)
    (a := ⟨1, 0, 0⟩) (b := ⟨0, 1, 0⟩) ⟨one, zero, zero⟩ ⟨zero, one, zero⟩ (by norm_num [dot]) (by norm_num [dot]) (f := 0) (g := 1)
    ⟨by norm_num, by norm_num [uvw], by norm_num [uvw], by norm_num [uvw]⟩ ⟨by norm_num, by norm_num [uvw], by norm_num [uvw], by norm_num [uvw]⟩
    (by norm_num) (tiny.trans (by norm_num)) (tiny.trans (by norm_num)) (by norm_num [dot])
  refine ⟨segs, h1, ?_⟩
  have e1 := h4.first
  have e2 := h4.last
  rcases segs with _ | ⟨s, _ | ⟨t, l⟩⟩
  · cases e1
  · simp only [List.map_cons, List.map_nil, List.head?_cons, List.getLast?_singleton, Option.some.injEq] at e1 e2
    omega
  · simp

/-! ## Nearly opposite points

The two points below are opposite up to the last digits, and differ in length by less than `2^-50`. The computed normal is almost parallel to them. -/

theorem rne_tie {x : ℝ} (m k : ℤ) (hk : -1074 ≤ k) (h0 : 2 ^ 52 < m) (h1 : m < 2 ^ 53) (he : m % 2 = 0) (h2 : |(m : ℝ) - x / 2 ^ k| = 1 / 2) :
    rne x = m * 2 ^ k := by
  have hp := two_zpow_pos (K := ℝ) k
  have m0 : ((2 ^ 52 + 1 : ℤ) : ℝ) ≤ m := by exact_mod_cast h0
  have m1 : (m : ℝ) ≤ ((2 ^ 53 - 1 : ℤ) : ℝ) := by exact_mod_cast Int.le_sub_one_of_lt h1
  push_cast at m0 m1
  have h3 := abs_le.1 h2.le
  have b1 : 2 ^ 52 ≤ x / 2 ^ k := by norm_num at *; linarith
  have b2 : x / 2 ^ k ≤ 2 ^ 53 := by norm_num at *; linarith
  rw [le_div_iff₀ hp] at b1
  rw [div_le_iff₀ hp] at b2
  have hx : 0 ≤ x := le_trans (by positivity) b1
  rw [rne_binade hk (by rw [abs_of_nonneg hx, two_zpow_add, mul_comm]; exact_mod_cast b1)
    (by rw [abs_of_nonneg hx, two_zpow_add, mul_comm]; exact_mod_cast b2), roundEven_tie_eq h2 he]

/-- The first point, `(5, 4, 3) / √50` to the nearest doubles. -/
noncomputable def nearA : Vec ℝ := ⟨6369051672525773 / 2 ^ 53, 5095241338020617 / 2 ^ 53, 7642862007030930 / 2 ^ 54⟩

/-- The second point. -/
noncomputable def nearB : Vec ℝ := ⟨-(6369051672525768 / 2 ^ 53), -(5095241338020613 / 2 ^ 53), -(7642862007030924 / 2 ^ 54)⟩

/-- The computed normal. -/
noncomputable def nearN : Vec ℝ := ⟨-(5 * (1 / 2 ^ 104)), 2 * (1 / 2 ^ 104), 2 * (1 / 2 ^ 104)⟩

theorem near_f64 : VecF64 nearA ∧ VecF64 nearB := by
  have key : ∀ (m : ℤ) (k : ℤ), |m| ≤ 2 ^ 53 → -1074 ≤ k → IsF64 ((m : ℝ) * 2 ^ k) := fun m k h1 h2 => rne_exact rfl h1 h2
  have a1 := key 6369051672525773 (-53) (by norm_num) (by norm_num)
  have a2 := key 5095241338020617 (-53) (by norm_num) (by norm_num)
  have a3 := key 7642862007030930 (-54) (by norm_num) (by norm_num)
  have b1 := key (-6369051672525768) (-53) (by norm_num) (by norm_num)
  have b2 := key (-5095241338020613) (-53) (by norm_num) (by norm_num)
  have b3 := key (-7642862007030924) (-54) (by norm_num) (by norm_num)
  unfold nearA nearB
  refine ⟨⟨?_, ?_, ?_⟩, ?_, ?_, ?_⟩
  · convert a1 using 1; norm_num
  · convert a2 using 1; norm_num
  · convert a3 using 1; norm_num
  · convert b1 using 1; norm_num
  · convert b2 using 1; norm_num
  · convert b3 using 1; norm_num

theorem near_normal (sqrt : ℝ → ℝ) : Vec.pointCross rne sqrt nearA nearB = nearN := by
  have ex : ∀ (m : ℤ) (k : ℤ), |m| ≤ 2 ^ 53 → -1074 ≤ k → rne ((m : ℝ) * 2 ^ k) = (m : ℝ) * 2 ^ k := fun m k h1 h2 => rne_exact rfl h1 h2
  -- the sum and the difference
  have s1 : rne (6369051672525773 / 2 ^ 53 + -(6369051672525768 / 2 ^ 53) : ℝ) = 5 / 2 ^ 53 := by
    have := ex 5 (-53) (by norm_num) (by norm_num)
    convert this using 2 <;> norm_num
  have s2 : rne (5095241338020617 / 2 ^ 53 + -(5095241338020613 / 2 ^ 53) : ℝ) = 4 / 2 ^ 53 := by
    have := ex 4 (-53) (by norm_num) (by norm_num)
    convert this using 2 <;> norm_num
  have s3 : rne (7642862007030930 / 2 ^ 54 + -(7642862007030924 / 2 ^ 54) : ℝ) = 3 / 2 ^ 53 := by
    have := ex 3 (-53) (by norm_num) (by norm_num)
    convert this using 2 <;> norm_num
  have d1 : rne (-(6369051672525768 / 2 ^ 53) - 6369051672525773 / 2 ^ 53 : ℝ) = -(12738103345051540 / 2 ^ 53) := by
    rw [show (-(6369051672525768 / 2 ^ 53) - 6369051672525773 / 2 ^ 53 : ℝ) = -(12738103345051541 / 2 ^ 53) by norm_num, rne_odd,
      rne_tie 6369051672525770 (-52)] <;> norm_num
  have d2 : rne (-(5095241338020613 / 2 ^ 53) - 5095241338020617 / 2 ^ 53 : ℝ) = -(10190482676041230 / 2 ^ 53) := by
    have := ex (-5095241338020615) (-52) (by norm_num) (by norm_num)
    convert this using 2 <;> norm_num
  have d3 : rne (-(7642862007030924 / 2 ^ 54) - 7642862007030930 / 2 ^ 54 : ℝ) = -(7642862007030927 / 2 ^ 53) := by
    have := ex (-7642862007030927) (-53) (by norm_num) (by norm_num)
    convert this using 2 <;> norm_num
  -- the products
  have p1 : rne (4 / 2 ^ 53 * -(7642862007030927 / 2 ^ 53) : ℝ) = -(15285724014061854 / 2 ^ 105) := by
    have := ex (-7642862007030927) (-104) (by norm_num) (by norm_num)
    convert this using 2 <;> norm_num
  have p2 : rne (3 / 2 ^ 53 * -(10190482676041230 / 2 ^ 53) : ℝ) = -(15285724014061844 / 2 ^ 105) := by
    rw [mul_neg, rne_odd, rne_tie 7642862007030922 (-104)] <;> norm_num
  have p3 : rne (3 / 2 ^ 53 * -(12738103345051540 / 2 ^ 53) : ℝ) = -(19107155017577312 / 2 ^ 105) := by
    rw [mul_neg, rne_odd, rne_tie 4776788754394328 (-103)] <;> norm_num
  have p4 : rne (5 / 2 ^ 53 * -(7642862007030927 / 2 ^ 53) : ℝ) = -(19107155017577316 / 2 ^ 105) := by
    rw [mul_neg, rne_odd, rne_eval 4776788754394329 (-103)] <;> norm_num [abs_lt]
  have p5 : rne (5 / 2 ^ 53 * -(10190482676041230 / 2 ^ 53) : ℝ) = -(25476206690103076 / 2 ^ 105) := by
    rw [mul_neg, rne_odd, rne_eval 6369051672525769 (-103)] <;> norm_num [abs_lt]
  have p6 : rne (4 / 2 ^ 53 * -(12738103345051540 / 2 ^ 53) : ℝ) = -(25476206690103080 / 2 ^ 105) := by
    have := ex (-6369051672525770) (-103) (by norm_num) (by norm_num)
    convert this using 2 <;> norm_num
  have n1 : rne (-(15285724014061854 / 2 ^ 105) - -(15285724014061844 / 2 ^ 105) : ℝ) = -(5 * (1 / 2 ^ 104)) := by
    have := ex (-5) (-104) (by norm_num) (by norm_num)
    convert this using 2 <;> norm_num
  have n2 : rne (-(19107155017577312 / 2 ^ 105) - -(19107155017577316 / 2 ^ 105) : ℝ) = 2 * (1 / 2 ^ 104) := by
    have := ex 2 (-104) (by norm_num) (by norm_num)
    convert this using 2 <;> norm_num
  have n3 : rne (-(25476206690103076 / 2 ^ 105) - -(25476206690103080 / 2 ^ 105) : ℝ) = 2 * (1 / 2 ^ 104) := by
    have := ex 2 (-104) (by norm_num) (by norm_num)
    convert this using 2 <;> norm_num
  have e : Vec.cross rne (Vec.add rne nearA nearB) (Vec.sub rne nearB nearA) = nearN := by
    unfold Vec.cross Vec.add Vec.sub nearA nearB nearN
    simp only
    rw [s1, s2, s3, d1, d2, d3, p1, p2, p3, p4, p5, p6, n1, n2, n3]
  rw [pointCross_of, e]
  rw [e]
  rintro ⟨h, -⟩
  unfold nearN at h
  simp only at h
  norm_num at h

/-- The points are unit vectors for the code: `is_unit` accepts an error of `5e-14`. -/
theorem near_isUnit {eps : ℝ} (h : 1 / 2 ^ 45 < eps) : Vec.isUnit rne eps nearA = true ∧ Vec.isUnit rne eps nearB = true := by
  have near : ∀ x : ℝ, |x| ≤ 2 → |rne x - x| ≤ 1 / 2 ^ 51 := by
    intro x hx
    have h1 := rounding_rne (K := ℝ) x (hx.trans (by
      calc (2 : ℝ) = 2 ^ 1 := by norm_num
        _ ≤ 2 ^ 1023 := pow_le_pow_right₀ (by norm_num) (by norm_num)))
    have h2 : (1 : ℝ) / 2 ^ 1075 ≤ 1 / 2 ^ 53 := one_div_le_one_div_of_le (by positivity) (pow_le_pow_right₀ (by norm_num) (by norm_num))
    have h3 : |x| / 2 ^ 53 ≤ 2 / 2 ^ 53 := div_le_div_of_nonneg_right hx (by positivity)
    norm_num at *
    linarith
  have key : ∀ p : Vec ℝ, |p.x * p.x| ≤ 1 → |p.y * p.y| ≤ 1 → |p.z * p.z| ≤ 1 → |p.x * p.x + p.y * p.y + p.z * p.z - 1| ≤ 1 / 2 ^ 47 →
      Vec.isUnit rne eps p = true := by
    intro p h1 h2 h3 h4
    have r1 := abs_le.mp (near (p.x * p.x) (by linarith))
    have r2 := abs_le.mp (near (p.y * p.y) (by linarith))
    have r3 := abs_le.mp (near (p.z * p.z) (by linarith))
    have q1 := mul_self_nonneg p.x
    have q2 := mul_self_nonneg p.y
    have q3 := mul_self_nonneg p.z
    rw [abs_le] at h4
    have c1 : (1 : ℝ) / 2 ^ 51 ≤ 1 / 16 := by norm_num
    have c2 : (1 : ℝ) / 2 ^ 47 ≤ 1 / 16 := by norm_num
    have r4 := abs_le.mp (near (rne (p.x * p.x) + rne (p.y * p.y)) (by rw [abs_le]; constructor <;> linarith))
    have r5 := abs_le.mp (near (rne (rne (p.x * p.x) + rne (p.y * p.y)) + rne (p.z * p.z)) (by rw [abs_le]; constructor <;> linarith))
    unfold Vec.isUnit Vec.norm2 Vec.dot
    rw [decide_eq_true_eq]
    refine lt_of_le_of_lt ?_ h
    have e45 : rne (1 / 2 ^ 45 : ℝ) = 1 / 2 ^ 45 := rne_exact (m := 1) (k := -45) (by norm_num [zpow_neg]) (by norm_num) (by norm_num)
    generalize rne (rne (rne (p.x * p.x) + rne (p.y * p.y)) + rne (p.z * p.z)) = t at *
    have c3 : 5 * ((1 : ℝ) / 2 ^ 51) + 1 / 2 ^ 47 ≤ 1 / 2 ^ 45 := by norm_num
    have ht : |t - 1| ≤ 1 / 2 ^ 45 := by
      rw [abs_le]
      constructor <;> linarith
    rw [abs_le] at ht ⊢
    have m1 := rne_mono ht.1
    have m2 := rne_mono ht.2
    rw [rne_odd, e45] at m1
    rw [e45] at m2
    exact ⟨m1, m2⟩
  constructor
  · refine key nearA ?_ ?_ ?_ ?_ <;> unfold nearA <;> norm_num [abs_le]
  · refine key nearB ?_ ?_ ?_ ?_ <;> unfold nearB <;> norm_num [abs_le]

theorem near_inside : WellInside 0 nearA ∧ WellInside 3 nearB := by
  unfold nearA nearB
  refine ⟨⟨by norm_num, ?_, ?_, ?_⟩, by norm_num, ?_, ?_, ?_⟩ <;> norm_num [uvw, abs_le]

theorem nearN_f64 : VecF64 nearN := by
  rw [← near_normal Real.sqrt]
  exact pointCross_f64 _ _ _

/-- The order in which the walk visits the faces. -/
def nearCycle : Nat → Nat
  | 0 => 1
  | 1 => 5
  | 5 => 4
  | 4 => 2
  | _ => 1

theorem next_plain {f g : Nat} (hf : f < 6) {p : R2.Point ℝ} {ax : Axis} {n : Vec ℝ} (h : ax = .V → |p.x| ≠ 1) (h' : ax = .U → |p.y| ≠ 1) :
    nextFace _root_.id f p ax n g = uvwFace f ax.value (if (if ax = .V then p.y else p.x) > 0 then 1 else 0) := by
  obtain ⟨a, b, c, d, ea, eb, ec, ed, -⟩ := nbr_spec hf
  unfold nextFace
  cases ax with
  | U =>
    simp only [reduceCtorEq, if_false, Axis.value, Nat.sub_zero, Option.bind_eq_bind]
    have ho : ∃ o, uvwFace f 1 (if p.y > 0 then 1 else 0) = some o := by
      split_ifs
      · exact ⟨c, ec⟩
      · exact ⟨d, ed⟩
    obtain ⟨o, eo⟩ := ho
    rw [eo, Option.bind_some]
    exact if_neg (fun k => h' rfl k.1)
  | V =>
    simp only [if_true, Axis.value, Nat.sub_self, Option.bind_eq_bind]
    have ho : ∃ o, uvwFace f 0 (if p.x > 0 then 1 else 0) = some o := by
      split_ifs
      · exact ⟨a, ea⟩
      · exact ⟨b, eb⟩
    obtain ⟨o, eo⟩ := ho
    rw [eo, Option.bind_some]
    exact if_neg (fun k => h rfl k.1)

/-- From face 0 the walk leaves to face 1, then goes around through the faces 5, 4, 2 and back to 1: it never reaches face 3. -/
theorem near_next {neg : ℝ → Bool} (hneg : SignBit neg) {f : Nat} (hf : f = 0 ∨ f = 1 ∨ f = 2 ∨ f = 4 ∨ f = 5) :
    nextFace rne f (exitPoint rne (uvw f nearN) (exitAxis rne neg (uvw f nearN))) (exitAxis rne neg (uvw f nearN)) (uvw f nearN) 3 =
      some (nearCycle f) := by
  have hN := nearN_f64
  obtain ⟨c, hc⟩ : ∃ c : ℝ, c = 1 / 2 ^ 104 := ⟨_, rfl⟩
  have c0 : 0 < c := by rw [hc]; positivity
  have eN : nearN = ⟨-(5 * c), 2 * c, 2 * c⟩ := by rw [hc]; rfl
  rcases hf with rfl | hf
  · have hx : exitAxis rne neg (uvw 0 nearN) = .U := by
      rw [axis_same (uvw_f64 (by norm_num) hN)]
      unfold exitAxis
      rw [eN]
      have ho : ¬ intersectsOppositeEdges _root_.id (uvw 0 (⟨-(5 * c), 2 * c, 2 * c⟩ : Vec ℝ)) = true := by
        rw [opposite_id]
        simp only [uvw]
        rw [abs_neg, abs_of_pos (by linarith : 0 < 5 * c), sub_self, abs_zero]
        linarith
      rw [if_neg ho]
      simp only [uvw]
      rw [hneg (2 * c) (by positivity), hneg (-(5 * c)) (by linarith [c0] : -(5 * c) < 0).ne, decide_eq_false (by linarith), decide_eq_true (by linarith)]
      rfl
    rw [hx]
    have ex : ∀ (m : ℤ) (k : ℤ), |m| ≤ 2 ^ 53 → -1074 ≤ k → rne ((m : ℝ) * 2 ^ k) = (m : ℝ) * 2 ^ k := fun m k h1 h2 => rne_exact rfl h1 h2
    have r1 : rne (-1 * (2 * (1 / 2 ^ 104)) : ℝ) = -1 * (2 * (1 / 2 ^ 104)) := by
      have := ex (-2) (-104) (by norm_num) (by norm_num)
      have e : (-1 * (2 * (1 / 2 ^ 104)) : ℝ) = ((-2 : ℤ) : ℝ) * 2 ^ (-104 : ℤ) := by norm_num
      rw [e]
      exact this
    have r2 : rne (-1 * (2 * (1 / 2 ^ 104)) - -(5 * (1 / 2 ^ 104)) : ℝ) = 3 * (1 / 2 ^ 104) := by
      have := ex 3 (-104) (by norm_num) (by norm_num)
      convert this using 2 <;> norm_num
    have r3 : rne (3 * (1 / 2 ^ 104) / (2 * (1 / 2 ^ 104)) : ℝ) = 3 / 2 := by
      have := ex 3 (-1) (by norm_num) (by norm_num)
      convert this using 2 <;> norm_num
    have he : exitPoint rne (uvw 0 nearN) .U = ⟨1, 3 / 2⟩ := by
      have hp : (2 * (1 / 2 ^ 104) : ℝ) > 0 := by positivity
      unfold exitPoint nearN
      simp only [uvw, if_pos hp]
      rw [r1, r2, r3]
    rw [he]
    unfold nextFace
    simp only [reduceCtorEq, if_false, Axis.value, Nat.sub_zero, Option.bind_eq_bind]
    rw [if_pos (by norm_num : (3 / 2 : ℝ) > 0), if_pos (by norm_num : (1 : ℝ) > 0)]
    have e1 : uvwFace 0 1 1 = some 2 := rfl
    have e2 : uvwFace 0 0 1 = some 1 := rfl
    rw [e1, e2, Option.bind_some]
    refine if_neg ?_
    rintro ⟨h, -⟩
    norm_num at h
  · have h6 : f < 6 := by omega
    have a5 : |5 * c| = 5 * c := abs_of_pos (by linarith)
    have a2 : |2 * c| = 2 * c := abs_of_pos (by linarith)
    have a3 : |5 * c - 2 * c| = 3 * c := by rw [abs_of_pos (by linarith)]; ring
    have a3' : |2 * c - 5 * c| = 3 * c := by rw [abs_of_neg (by linarith)]; ring
    have n5 : ¬ -(5 * c) > 0 := by linarith
    have p5 : ¬ 5 * c < 0 := by linarith
    have i1 : |(uvw f nearN).z| ≤ |(uvw f nearN).x| + |(uvw f nearN).y| := by
      rw [eN]
      rcases hf with rfl | rfl | rfl | rfl <;> simp only [uvw, abs_neg, neg_neg, a5, a2] <;> linarith
    have i2 : (uvw f nearN).x ≠ 0 ∨ (uvw f nearN).y ≠ 0 := by
      left
      rw [eN]
      have h5 : 5 * c ≠ 0 := by positivity
      have h2 : 2 * c ≠ 0 := by positivity
      rcases hf with rfl | rfl | rfl | rfl <;> simp only [uvw, neg_neg, ne_eq, neg_eq_zero] <;> assumption
    rw [next_same h6 3 hneg hN i1 i2]
    unfold nxt
    have ho : intersectsOppositeEdges _root_.id (uvw f nearN) = true := by
      rw [opposite_id, eN]
      rcases hf with rfl | rfl | rfl | rfl <;> simp only [uvw, abs_neg, neg_neg, a5, a2, a3, a3'] <;> linarith
    have hax : exitAxis _root_.id neg (uvw f nearN) = if f = 1 ∨ f = 2 then .V else .U := by
      unfold exitAxis
      rw [if_pos ho, eN]
      rcases hf with rfl | rfl | rfl | rfl <;> simp only [uvw, abs_neg, neg_neg, a5, a2]
      · rw [if_pos (by linarith), if_pos (by norm_num)]
      · rw [if_pos (by linarith), if_pos (by norm_num)]
      · rw [if_neg (by linarith), if_neg (by norm_num)]
      · rw [if_neg (by linarith), if_neg (by norm_num)]
    rw [hax, eN]
    have h5 : (5 * c) ≠ 0 := by positivity
    rcases hf with rfl | rfl | rfl | rfl
    · rw [if_pos (by norm_num)]
      have he : exitPoint _root_.id (uvw 1 (⟨-(5 * c), 2 * c, 2 * c⟩ : Vec ℝ)) .V = ⟨0, -1⟩ := by
        unfold exitPoint
        simp only [uvw, neg_neg, if_neg p5, _root_.id, one_mul, sub_self, zero_div]
      rw [he, next_plain (by norm_num) (fun _ => by norm_num) (fun h => by cases h), if_pos rfl, if_neg (by norm_num)]
      rfl
    · rw [if_pos (by norm_num)]
      have he : exitPoint _root_.id (uvw 2 (⟨-(5 * c), 2 * c, 2 * c⟩ : Vec ℝ)) .V = ⟨-(4 / 5), -1⟩ := by
        unfold exitPoint
        simp only [uvw, neg_neg, if_neg p5, _root_.id, one_mul]
        rw [show (-(2 * c) - 2 * c) / (5 * c) = -(4 / 5) by field_simp; norm_num]
      rw [he, next_plain (by norm_num) (fun _ => by rw [abs_neg, abs_of_pos] <;> norm_num) (fun h => by cases h), if_pos rfl, if_neg (by norm_num)]
      rfl
    · rw [if_neg (by norm_num)]
      have he : exitPoint _root_.id (uvw 4 (⟨-(5 * c), 2 * c, 2 * c⟩ : Vec ℝ)) .U = ⟨-1, 0⟩ := by
        unfold exitPoint
        simp only [uvw, neg_neg, if_neg n5, _root_.id, one_mul, sub_neg_eq_add, neg_add_cancel, zero_div]
      rw [he, next_plain (by norm_num) (fun h => by cases h) (fun _ => by norm_num), if_neg (by rw [if_neg (by simp)]; norm_num)]
      rfl
    · rw [if_neg (by norm_num)]
      have he : exitPoint _root_.id (uvw 5 (⟨-(5 * c), 2 * c, 2 * c⟩ : Vec ℝ)) .U = ⟨-1, -(4 / 5)⟩ := by
        unfold exitPoint
        simp only [uvw, neg_neg, if_neg n5, _root_.id, one_mul, sub_neg_eq_add]
        rw [show (2 * c + 2 * c) / -(5 * c) = -(4 / 5) by field_simp; norm_num]
      rw [he, next_plain (by norm_num) (fun h => by cases h) (fun _ => by rw [abs_neg, abs_of_pos] <;> norm_num), if_neg (by rw [if_neg (by simp)]; norm_num)]
      rfl

/-- **C114.** The loop never ends for this normal and the face 3. -/
theorem near_loop {neg : ℝ → Bool} (hneg : SignBit neg) (bs : R2.Point ℝ) (seg : FaceSegment ℝ) : segmentLoop rne neg nearN 3 bs 0 seg = none := by
  have key := segmentLoop.partial_correctness rne neg nearN 3 bs (fun f _ _ => ¬ (f = 0 ∨ f = 1 ∨ f = 2 ∨ f = 4 ∨ f = 5)) (by
    intro loop ih f seg r h hf
    have h6 : f < 6 := by omega
    have h3 : f ≠ 3 := by omega
    rw [if_neg h3] at h
    simp only [uvw_eq h6, cubeXYZ_eq h6, Option.bind_eq_bind, Option.bind_some, near_next hneg hf] at h
    obtain ⟨q, -, h⟩ := Option.bind_eq_some_iff.mp h
    obtain ⟨rest, h, -⟩ := Option.bind_eq_some_iff.mp h
    refine ih _ _ _ h ?_
    rcases hf with rfl | rfl | rfl | rfl | rfl <;> simp [nearCycle])
  cases hr : segmentLoop rne neg nearN 3 bs 0 seg with
  | none => rfl
  | some r => exact absurd (Or.inl rfl) (key 0 seg r hr)

/-- **C114 (defect).** `face_segments` does not return for two nearly opposite points: both are doubles, unit vectors within less than the tolerance
of `is_unit`, and well inside the faces 0 and 3. The faces that the walk visits are `0, 1, 5, 4, 2, 1, 5, 4, 2, …`. -/
theorem c114_diverges (sqrt : ℝ → ℝ) {neg : ℝ → Bool} (hneg : SignBit neg) {sqrt2 : ℝ} (h2 : 7 / 5 ≤ sqrt2) :
    ∃ a b : Vec ℝ, VecF64 a ∧ VecF64 b ∧ (∀ eps, 1 / 2 ^ 45 < eps → Vec.isUnit rne eps a = true ∧ Vec.isUnit rne eps b = true) ∧
      WellInside 0 a ∧ WellInside 3 b ∧ faceSegments rne sqrt neg sqrt2 a b = none ∧
      ∃ F : ℕ → ℕ, F 0 = 0 ∧ ∀ i, F i ≠ 3 ∧ ∃ n, faceXYZtoUVW (F i) (Vec.pointCross rne sqrt a b) = some n ∧
        nextFace rne (F i) (exitPoint rne n (exitAxis rne neg n)) (exitAxis rne neg n) n 3 = some (F (i + 1)) := by
  refine ⟨nearA, nearB, near_f64.1, near_f64.2, fun _ h => near_isUnit h, near_inside.1, near_inside.2, ?_, ?_⟩
  · obtain ⟨pa, pa1, pa2⟩ := project_round near_inside.1
    obtain ⟨pb, pb1, pb2⟩ := project_round near_inside.2
    unfold faceSegments
    simp only [pa, pb, Option.bind_eq_bind, Option.bind_some]
    rw [if_neg (by norm_num), near_normal, moveOrigin_fast sqrt neg h2 0 _ _ pa1 pa2, Option.bind_some, moveOrigin_fast sqrt neg h2 3 _ _ pb1 pb2,
      Option.bind_some]
    exact near_loop hneg _ _
  · obtain ⟨F, hF0, hF⟩ : ∃ F : ℕ → ℕ, F 0 = 0 ∧ ∀ i, F (i + 1) = nearCycle (F i) :=
      ⟨fun i => Nat.rec 0 (fun _ f => nearCycle f) i, rfl, fun _ => rfl⟩
    have hm : ∀ i, F i = 0 ∨ F i = 1 ∨ F i = 2 ∨ F i = 4 ∨ F i = 5 := by
      intro i
      induction i with
      | zero => exact Or.inl hF0
      | succ i ih =>
        rw [hF]
        rcases ih with h | h | h | h | h <;> rw [h] <;> simp [nearCycle]
    refine ⟨F, hF0, fun i => ⟨?_, ?_⟩⟩
    · have := hm i
      omega
    · have h6 : F i < 6 := by
        have := hm i
        omega
      refine ⟨_, uvw_eq h6 _, ?_⟩
      rw [near_normal, hF]
      exact near_next hneg (hm i)

end Verif
