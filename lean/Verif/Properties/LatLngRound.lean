import Verif.Proofs.LatLngRound
import Verif.Properties.FaceRound
import Verif.Properties.CellBound

/-!
# C115: conversions between points, latitudes and longitudes, and cells, with rounding

`fl` is any rounding with the error bound of IEEE 754; `sin`, `cos` and `atan2` are library functions with the errors of `NearRel` and `NearArg`.
-/

namespace Verif
open Spec S2 CellID

theorem dir_core {s C r cl ct x p T e : ℝ} (s0 : 0 < s) (s3 : s ≤ 3) (r0 : 0 ≤ r) (rs : r ≤ s) (e0 : 0 ≤ e) (hC : |s * C - r| ≤ 52 * e)
    (hl : |cl - ct| ≤ 8 * e) (h1 : |cl| ≤ 1) (hx : r * ct = x) (hp : |p - cl * C| ≤ T) (hT : T ≤ 13 * e) : |s * p - x| ≤ 128 * e := by
  have e1 : s * p - x = s * (p - cl * C) + cl * (s * C - r) + r * (cl - ct) := by rw [← hx]; ring
  rw [e1]
  refine (abs_add_le _ _).trans ?_
  have a := abs_add_le (s * (p - cl * C)) (cl * (s * C - r))
  rw [abs_mul, abs_mul, abs_of_pos s0] at a
  rw [abs_mul r, abs_of_nonneg r0]
  have m1 := mul_le_mul s3 (hp.trans hT) (abs_nonneg _) (by norm_num)
  have m2 := mul_le_mul h1 hC (abs_nonneg _) (by norm_num)
  have m3 := mul_le_mul (rs.trans s3) hl (abs_nonneg _) (by norm_num)
  linarith

/-- **C115.** The latitude and longitude of a vector, converted back to a point, give the direction of the vector up to `2^-46`. -/
theorem c115_direction {fl sin cos : ℝ → ℝ} {atan2 : ℝ → ℝ → ℝ} (h : Rounding fl) (hsin : NearRel sin Real.sin) (hcos : NearRel cos Real.cos)
    (ha : NearArg atan2) {v : Vec ℝ} (h0 : ¬ IsZero v) (h1 : dot v v ≤ 8) : ∃ s p, 0 < s ∧ s ^ 2 = dot v v ∧
      p = LatLng.toPoint fl sin cos (LatLng.ofPoint fl Real.sqrt atan2 v) ∧
      |s * p.x - v.x| ≤ 1 / 2 ^ 46 ∧ |s * p.y - v.y| ≤ 1 / 2 ^ 46 ∧ |s * p.z - v.z| ≤ 1 / 2 ^ 46 := by
  obtain ⟨t1, t2, r, s, H⟩ := ofPoint_err h ha h0 h1
  generalize LatLng.ofPoint fl Real.sqrt atan2 v = ll at *
  obtain ⟨px, py, pz⟩ := toPoint_err h hsin hcos ll
  have e0 := eps53_pos
  have e1 := eps53_le
  have t0 := tau200_pos
  have t1' := tau200_le
  have s0 := H.s0
  have s3 : s ≤ 3 := by nlinarith [H.s2]
  have hd : dot v v = v.x * v.x + v.y * v.y + v.z * v.z := rfl
  have rs : r ≤ s := by
    refine le_of_sq_le_sq ?_ s0.le
    rw [H.s2, H.r2, hd]
    linarith [mul_self_nonneg v.z]
  have c1 := (Real.abs_cos_sub_cos_le ll.lat t1).trans H.lat
  have c2 := (Real.abs_cos_sub_cos_le ll.lng t2).trans H.lng
  have n1 := (Real.abs_sin_sub_sin_le ll.lat t1).trans H.lat
  have n2 := (Real.abs_sin_sub_sin_le ll.lng t2).trans H.lng
  have hC : |s * Real.cos ll.lat - r| ≤ 52 * eps53 := by
    have e : s * Real.cos ll.lat - r = s * (Real.cos ll.lat - Real.cos t1) + (s * Real.cos t1 - r) := by ring
    rw [e]
    refine (abs_add_le _ _).trans ?_
    rw [abs_mul, abs_of_pos s0]
    have := mul_le_mul s3 c1 (abs_nonneg _) (by norm_num)
    linarith [H.cos1]
  have hT : 12 * eps53 * |Real.cos ll.lat| + 4 * tau200 ≤ 13 * eps53 := by
    have := mul_le_mul_of_nonneg_left (Real.abs_cos_le_one ll.lat) (by linarith : 0 ≤ 12 * eps53)
    linarith
  have k : (1 : ℝ) / 2 ^ 46 = 128 * eps53 := by unfold eps53; norm_num
  rw [k]
  refine ⟨s, _, s0, H.s2, rfl, dir_core s0 s3 H.r0 rs e0.le hC c2 (Real.abs_cos_le_one _) H.cos2 px hT,
    dir_core s0 s3 H.r0 rs e0.le hC n2 (Real.abs_sin_le_one _) H.sin2 py hT, ?_⟩
  generalize (LatLng.toPoint fl sin cos ll).z = z at *
  have e : s * z - v.z = s * (z - Real.sin ll.lat) + s * (Real.sin ll.lat - Real.sin t1) + (s * Real.sin t1 - v.z) := by ring
  rw [e]
  have a1 := abs_add_le (s * (z - Real.sin ll.lat) + s * (Real.sin ll.lat - Real.sin t1)) (s * Real.sin t1 - v.z)
  have a2 := abs_add_le (s * (z - Real.sin ll.lat)) (s * (Real.sin ll.lat - Real.sin t1))
  rw [abs_mul, abs_mul, abs_of_pos s0] at a2
  have hz : |z - Real.sin ll.lat| ≤ 5 * eps53 := by
    have := mul_le_mul_of_nonneg_left (Real.abs_sin_le_one ll.lat) (by linarith : 0 ≤ 4 * eps53)
    linarith
  have m1 := mul_le_mul s3 hz (abs_nonneg _) (by norm_num)
  have m2 := mul_le_mul s3 n1 (abs_nonneg _) (by norm_num)
  linarith [H.sin1]

example : ¬ IsZero (⟨1 / 3, -2 / 3, 2 / 3⟩ : Vec ℝ) ∧ dot (⟨1 / 3, -2 / 3, 2 / 3⟩ : Vec ℝ) ⟨1 / 3, -2 / 3, 2 / 3⟩ ≤ 8 ∧ Rounding (rne : ℝ → ℝ) ∧
    NearRel Real.sin Real.sin ∧ NearArg (fun y x => Complex.arg ⟨x, y⟩) :=
  ⟨by norm_num [IsZero], by norm_num [dot], rounding_rne, nearRel_self _, nearArg_arg⟩

theorem uv_eq_fl (fl : ℝ → ℝ) {f : Nat} (hf : f < 6) (P : Vec ℝ) :
    validFaceXYZtoUV fl f P = some (fl ((uvw f P).x / (uvw f P).z), fl ((uvw f P).y / (uvw f P).z)) := by
  interval_cases f <;> simp only [validFaceXYZtoUV, uvw, neg_div_neg_eq] <;> simp only [div_neg, neg_div]

theorem uvw_near {f : Nat} (hf : f < 6) {q w : Vec ℝ} {k d : ℝ} (hx : |q.x - k * w.x| ≤ d) (hy : |q.y - k * w.y| ≤ d) (hz : |q.z - k * w.z| ≤ d) :
    |(uvw f q).x - k * (uvw f w).x| ≤ d ∧ |(uvw f q).y - k * (uvw f w).y| ≤ d ∧ |(uvw f q).z - k * (uvw f w).z| ≤ d := by
  have n : ∀ a b : ℝ, |a - k * b| ≤ d → |-a - k * -b| ≤ d := by
    intro a b hab
    rw [← abs_neg] at hab
    rwa [show -a - k * -b = -(a - k * b) by ring]
  interval_cases f <;> refine ⟨?_, ?_, ?_⟩ <;> simp only [uvw] <;> first | assumption | exact n _ _ (by assumption)

/-- A point near the ray through a point of a face is projected near that point. -/
theorem project_tol {fl : ℝ → ℝ} (h : Rounding fl) {f : Nat} (hf : f < 6) {u v : ℝ} (hu : |u| ≤ 1 - 1 / 2 ^ 40) (hv : |v| ≤ 1 - 1 / 2 ^ 40)
    {w : Vec ℝ} (hw : faceUVtoXYZ f u v = some w) {k : ℝ} (hk : 1 / 2 ≤ k) {q : Vec ℝ} (hx : |q.x - k * w.x| ≤ 512 * eps53)
    (hy : |q.y - k * w.y| ≤ 512 * eps53) (hz : |q.z - k * w.z| ≤ 512 * eps53) :
    ¬ IsZero q ∧ vecFace q = f ∧ ∃ u' v', xyzToFaceUV fl q = some (f, u', v') ∧ |u' - u| ≤ 1 / 2 ^ 41 ∧ |v' - v| ≤ 1 / 2 ^ 41 := by
  have e0 := eps53_pos
  have e1 := eps53_le
  rw [cubeXYZ_eq hf] at hw
  obtain rfl := Option.some.inj hw
  obtain ⟨a1, a2, a3⟩ := uvw_near hf hx hy hz
  rw [uvw_cubeXYZ hf] at a1 a2 a3
  dsimp only at a1 a2 a3
  rw [mul_one] at a3
  have z4 : 49 / 100 ≤ (uvw f q).z := by linarith [(abs_le.1 a3).1]
  have k41 : (1 : ℝ) / 2 ^ 41 = 4096 * eps53 := by unfold eps53; norm_num
  have k40 : (1 : ℝ) / 2 ^ 40 = 8192 * eps53 := by unfold eps53; norm_num
  have k49 : (1 : ℝ) / 2 ^ 49 = 16 * eps53 := by unfold eps53; norm_num
  rw [k40] at hu hv
  have inside : ∀ X u : ℝ, |u| ≤ 1 - 8192 * eps53 → |X - k * u| ≤ 512 * eps53 → |X| ≤ (1 - 16 * eps53) * (uvw f q).z := by
    intro X u hu hX
    have b1 := abs_sub_abs_le_abs_sub X (k * u)
    rw [abs_mul, abs_of_nonneg (by linarith : 0 ≤ k)] at b1
    have b2 := mul_le_mul_of_nonneg_left hu (by linarith : 0 ≤ k)
    have b3 := (abs_le.1 a3).1
    have b4 := mul_le_mul_of_nonneg_right hk e0.le
    have b5 := (abs_le.1 a3).2
    have b6 : eps53 * (uvw f q).z ≤ eps53 * (2 * k) := mul_le_mul_of_nonneg_left (by linarith) e0.le
    linarith
  have hW : WellInside f q := by
    refine ⟨hf, by linarith, ?_, ?_⟩ <;> rw [k49]
    · exact inside _ u hu a1
    · exact inside _ v hv a2
  have close : ∀ X u : ℝ, |u| ≤ 1 - 8192 * eps53 → |X - k * u| ≤ 512 * eps53 → |fl (X / (uvw f q).z) - u| ≤ 1 / 2 ^ 41 := by
    intro X u hu hX
    have b1 : |X - u * (uvw f q).z| ≤ 1024 * eps53 := by
      rw [show X - u * (uvw f q).z = (X - k * u) - u * ((uvw f q).z - k) by ring]
      refine (abs_sub _ _).trans ?_
      rw [abs_mul]
      have := mul_le_mul (hu.trans (by linarith) : |u| ≤ 1) a3 (abs_nonneg _) (by norm_num)
      linarith
    have b2 : |X / (uvw f q).z - u| ≤ 2100 * eps53 := by
      have : X / (uvw f q).z - u = (X - u * (uvw f q).z) / (uvw f q).z := by
        field_simp
      rw [this, abs_div, abs_of_pos (by linarith : 0 < (uvw f q).z), div_le_iff₀ (by linarith)]
      have := mul_le_mul_of_nonneg_left z4 (by linarith : 0 ≤ 2100 * eps53)
      linarith
    have b3 : |X / (uvw f q).z| ≤ 2 := by
      have := abs_sub_abs_le_abs_sub (X / (uvw f q).z) u
      linarith
    have b4 := fl_err h (x := X / (uvw f q).z) (by linarith)
    have b5 := abs_add_le (fl (X / (uvw f q).z) - X / (uvw f q).z) (X / (uvw f q).z - u)
    rw [sub_add_sub_cancel] at b5
    have b6 := mul_le_mul_of_nonneg_right b3 e0.le
    have := tau200_le
    rw [k41]
    linarith
  have hvf := wellInside_face hW
  refine ⟨?_, hvf, _, _, ?_, close _ u hu a1, close _ v hv a2⟩
  · rintro ⟨z1, z2, z3⟩
    have : dot (uvw f q) (uvw f q) = 0 := by
      rw [dot_uvw hf]
      unfold dot
      rw [z1, z2, z3]
      ring
    unfold dot at this
    nlinarith [mul_self_nonneg (uvw f q).x, mul_self_nonneg (uvw f q).y]
  · unfold xyzToFaceUV
    rw [hvf]
    dsimp only
    rw [uv_eq_fl fl hf]
    rfl

/-- The index computed from coordinates near those of a cell's centre. -/
theorem back_tol {fl sqrt : ℝ → ℝ} (h : Rounding fl) (hs : IsSqrt sqrt) {i0 S : Int} (hS : 0 < S) (h0 : 0 ≤ i0)
    (h1 : i0 + S ≤ 2 ^ 30) {u : ℝ} (hu : |u - stToUV fl (fl (((2 * i0 + S : Int) : ℝ) / 2 ^ 31))| ≤ 1 / 2 ^ 41) :
    i0 ≤ stToIJ fl (uvToST fl sqrt u) ∧ stToIJ fl (uvToST fl sqrt u) < i0 + S := by
  obtain ⟨c1, c2⟩ := centre_near h (m := 2 * i0 + S) (by omega) (by omega)
  refine stToIJ_near h hS h0 h1 ?_
  generalize ((2 * i0 + S : Int) : ℝ) / 2 ^ 31 = s at *
  have a1 := abs_add_le (u - stToUV fl (fl s)) (stToUV fl (fl s) - stToUV _root_.id s)
  rw [sub_add_sub_cancel] at a1
  have d1 := abs_of_near hu c2
  have b1 : -5 / 4 ≤ u ∧ u ≤ 5 / 4 := by
    rw [abs_le] at d1
    norm_num at d1
    constructor <;> linarith
  have a2 := uvToST_near h hs b1.1 b1.2
  have g1 : |stToUV _root_.id s| ≤ 5 / 4 := by
    have c1' : |stToUV _root_.id s - stToUV fl (fl s)| ≤ 1 / 2 ^ 45 := by rw [abs_sub_comm]; exact c1
    refine (abs_of_near c1' c2).trans ?_
    norm_num
  rw [abs_le] at g1
  have a3 := uvToST_lip hs b1.1 b1.2 (v := stToUV _root_.id s) (by linarith) (by linarith)
  rw [c59_uvToST_stToUV hs] at a3
  have a4 := abs_add_le (uvToST fl sqrt u - uvToST _root_.id sqrt u) (uvToST _root_.id sqrt u - s)
  rw [sub_add_sub_cancel] at a4
  norm_num at *
  linarith

/-- The length of a vector near a multiple of a point of the cube. -/
theorem length_near {v w : Vec ℝ} {k : ℝ} (k1 : 1 / 2 ≤ k) (k2 : k ≤ 3 / 2) (wx : |w.x| ≤ 1) (wy : |w.y| ≤ 1) (wz : |w.z| ≤ 1) (h1 : 1 ≤ dot w w)
    (hx : |v.x - w.x * k| ≤ 3 * eps53) (hy : |v.y - w.y * k| ≤ 3 * eps53) (hz : |v.z - w.z * k| ≤ 3 * eps53) :
    6 / 25 ≤ dot v v ∧ dot v v ≤ (9 / 5 * k) ^ 2 := by
  have e0 := eps53_pos
  have e1 := eps53_le
  have sqs : ∀ a b : ℝ, |b| ≤ 1 → |a - b * k| ≤ 3 * eps53 → |a * a - b * b * k ^ 2| ≤ 12 * eps53 := by
    intro a b hb hab
    have b1 : |b * k| ≤ 3 / 2 := by
      rw [abs_mul, abs_of_nonneg (by linarith : 0 ≤ k)]
      have := mul_le_mul_of_nonneg_right hb (by linarith : 0 ≤ k)
      linarith
    have b2 := abs_sub_abs_le_abs_sub a (b * k)
    have b3 := abs_add_le a (b * k)
    rw [show a * a - b * b * k ^ 2 = (a - b * k) * (a + b * k) by ring, abs_mul]
    have := mul_le_mul hab (by linarith : |a + b * k| ≤ 4) (abs_nonneg _) (by linarith)
    linarith
  have X := abs_le.1 (sqs _ _ wx hx)
  have Y := abs_le.1 (sqs _ _ wy hy)
  have Z := abs_le.1 (sqs _ _ wz hz)
  have o : ∀ b : ℝ, |b| ≤ 1 → b * b ≤ 1 := fun b hb => by rw [← abs_mul_abs_self]; nlinarith [abs_nonneg b]
  have w3 : dot w w ≤ 3 := by unfold dot; linarith [o _ wx, o _ wy, o _ wz]
  have kk : 1 / 4 ≤ k ^ 2 := by nlinarith
  have l1 := mul_le_mul_of_nonneg_right h1 (by linarith : 0 ≤ k ^ 2)
  have l2 := mul_le_mul_of_nonneg_right w3 (by linarith : 0 ≤ k ^ 2)
  have ed : dot w w * k ^ 2 = w.x * w.x * k ^ 2 + w.y * w.y * k ^ 2 + w.z * w.z * k ^ 2 := by unfold dot; ring
  have ev : dot v v = v.x * v.x + v.y * v.y + v.z * v.z := rfl
  rw [ev, show (9 / 5 * k) ^ 2 = 81 / 25 * k ^ 2 by ring]
  constructor <;> linarith

/-- **C115.** The latitude and longitude of a valid cell, converted back to a cell with rounding, give a leaf of that cell; for a leaf cell they give
the cell itself. -/
theorem c115_roundtrip {fl sin cos : ℝ → ℝ} {atan2 : ℝ → ℝ → ℝ} (h : Rounding fl) (hsin : NearRel sin Real.sin) (hcos : NearRel cos Real.cos)
    (ha : NearArg atan2) {c : CellID} (hc : Valid c) :
    ∃ ll l, c.toLatLng fl Real.sqrt atan2 = some ll ∧ fromLatLng fl Real.sqrt sin cos ll = some l ∧ Valid l ∧ l.level = some 30 ∧
      c.contains l = some true ∧ (c.level = some 30 → l = c) := by
  have hs := isSqrt_real
  have e0 := eps53_pos
  have e1 := eps53_le
  have hsq := hc.square
  obtain ⟨p, hp, _, hr⟩ := c22_real fl hc hsq
  have b1 := hsq.pos; have b2 := hsq.i_lo; have b3 := hsq.i_hi; have b4 := hsq.j_lo; have b5 := hsq.j_hi; have b6 := hsq.face
  generalize ((sr c).1 * ss c : Nat) = i0 at *
  generalize ((sr c).2.1 * ss c : Nat) = j0 at *
  generalize (ss c : Nat) = S at *
  generalize sf c = f at *
  unfold side at b3 b5
  obtain ⟨u1, u2⟩ := centre_near h (m := 2 * (i0 : Int) + S) (by omega) (by omega)
  obtain ⟨v1, v2⟩ := centre_near h (m := 2 * (j0 : Int) + S) (by omega) (by omega)
  obtain ⟨w, hw⟩ : ∃ w, faceUVtoXYZ f p.x p.y = some w := by
    interval_cases f <;> exact ⟨_, rfl⟩
  have hw' := hw
  rw [hp] at hw
  have hb : |w.x| ≤ 1 ∧ |w.y| ≤ 1 ∧ |w.z| ≤ 1 ∧ 1 ≤ w.x * w.x + w.y * w.y + w.z * w.z := by
    have hu1 := u2.trans (by norm_num : (1 : ℝ) - 1 / 2 ^ 40 ≤ 1)
    have hv1 := v2.trans (by norm_num : (1 : ℝ) - 1 / 2 ^ 40 ≤ 1)
    dsimp only at hw
    generalize stToUV fl (fl (((2 * (i0 : Int) + S : Int) : ℝ) / 2 ^ 31)) = u at *
    generalize stToUV fl (fl (((2 * (j0 : Int) + S : Int) : ℝ) / 2 ^ 31)) = v at *
    have su := mul_self_nonneg u
    have sv := mul_self_nonneg v
    clear hp hw' hr hsq
    interval_cases f <;> simp only [faceUVtoXYZ, Option.some.injEq] at hw <;> subst hw <;> dsimp only <;>
      refine ⟨?_, ?_, ?_, ?_⟩ <;> first | assumption | (rw [abs_neg]; assumption) | (norm_num; done) | nlinarith
  obtain ⟨k, k1, k2, kx, ky, kz⟩ := normalize_near h hs hb.1 hb.2.1 hb.2.2.1 hb.2.2.2
  have k3 : (3 : ℝ) / 2 ^ 53 = 3 * eps53 := by unfold eps53; ring
  rw [k3] at kx ky kz
  have hto : c.toPoint fl Real.sqrt = some (w.normalize fl Real.sqrt) := by
    unfold toPoint
    rw [hr, hp, hw]
    rfl
  generalize w.normalize fl Real.sqrt = q at *
  obtain ⟨q1, q2⟩ := length_near k1 k2 hb.1 hb.2.1 hb.2.2.1 hb.2.2.2 kx ky kz
  have q0 : ¬ IsZero q := by
    rintro ⟨z1, z2, z3⟩
    have : dot q q = 0 := by unfold dot; rw [z1, z2, z3]; ring
    linarith
  obtain ⟨s, P, s0, s2, hP, px, py, pz⟩ := c115_direction h hsin hcos ha q0 (by nlinarith)
  rw [show (1 : ℝ) / 2 ^ 46 = 128 * eps53 by unfold eps53; norm_num] at px py pz
  have sl : 12 / 25 ≤ s := by nlinarith
  have su : s ≤ 9 / 5 * k := by
    refine le_of_sq_le_sq ?_ (by linarith)
    rw [s2]; exact q2
  have near : ∀ a b d : ℝ, |s * a - b| ≤ 128 * eps53 → |b - d * k| ≤ 3 * eps53 → |a - k / s * d| ≤ 512 * eps53 := by
    intro a b d h1 h2
    have g1 := abs_add_le (s * a - b) (b - d * k)
    rw [sub_add_sub_cancel] at g1
    have g2 : a - k / s * d = (s * a - d * k) / s := by field_simp
    rw [g2, abs_div, abs_of_pos s0, div_le_iff₀ s0]
    have := mul_le_mul_of_nonneg_left sl e0.le
    linarith
  have hk : 1 / 2 ≤ k / s := by
    rw [le_div_iff₀ s0]
    linarith
  obtain ⟨n1, n2, u', v', g1, g2, g3⟩ := project_tol h b6 u2 v2 hw hk (near _ _ _ px kx) (near _ _ _ py ky) (near _ _ _ pz kz)
  have r1 := back_tol h hs b1 b2 b3 g2
  have r2 := back_tol h hs b1 b4 b5 g3
  obtain ⟨l, u'', v'', t1, t2, t3, t4, t5, t6⟩ := c61_total fl Real.sqrt n1
  rw [n2] at t4 t5 t6
  rw [g1] at t5
  simp only [Option.some.injEq, Prod.mk.injEq, true_and] at t5
  obtain ⟨rfl, rfl⟩ := t5
  have hin : c.contains l = some true := (hsq.leaves l _ _ _ t2 t3 t6).2 ⟨rfl, r1.1, r1.2, r2.1, r2.2⟩
  refine ⟨LatLng.ofPoint fl Real.sqrt atan2 q, l, ?_, ?_, t2, t3, hin, ?_⟩
  · unfold toLatLng
    rw [hto]
    rfl
  · unfold fromLatLng
    rw [← hP]
    exact t1
  · intro h30
    obtain ⟨r, r1, _, r2⟩ := c03_contains hc t2
    rw [hin] at r1
    obtain rfl := Option.some.inj r1
    obtain ⟨ka, kb, q1, q2, q3, q4⟩ := r2.1 rfl
    rw [h30] at q1
    obtain rfl := Option.some.inj q1
    rw [(c05_parent_parent t2 t3 (le_refl 30) (le_refl 30) q4).2] at q4
    exact Option.some.inj q4

example : Valid (⟨0x0123456789abcdef⟩ : CellID) ∧ Rounding (rne : ℝ → ℝ) ∧ NearRel Real.sin Real.sin ∧ NearRel Real.cos Real.cos ∧
    NearArg (fun y x => Complex.arg ⟨x, y⟩) :=
  ⟨by unfold Valid; decide +kernel, rounding_rne, nearRel_self _, nearRel_self _, nearArg_arg⟩

/-! ## The cell of a latitude and longitude -/

theorem direction_dot (ll : LatLng ℝ) : dot (direction ll.lat ll.lng) (direction ll.lat ll.lng) = 1 := by
  have a := Real.sin_sq_add_cos_sq ll.lat
  have b := Real.sin_sq_add_cos_sq ll.lng
  unfold dot direction
  dsimp only
  linear_combination (Real.cos ll.lat) ^ 2 * b + a

/-- The nearest number of an interval. -/
theorem clamp_near {lo hi x e : ℝ} (h : lo ≤ hi) (e0 : 0 ≤ e) (h1 : lo - e ≤ x) (h2 : x ≤ hi + e) : ∃ y, lo ≤ y ∧ y ≤ hi ∧ |y - x| ≤ e := by
  rcases le_total x lo with a | a
  · exact ⟨lo, le_refl _, h, by rw [abs_le]; constructor <;> linarith⟩
  · rcases le_total x hi with b | b
    · exact ⟨x, a, b, by rw [sub_self, abs_zero]; exact e0⟩
    · exact ⟨hi, h, le_refl _, by rw [abs_le]; constructor <;> linarith⟩

/-- Points of the cube with nearby coordinates. -/
theorem uv_move {f : Nat} {u v u' v' t E : ℝ} {w : Vec ℝ} (hw : faceUVtoXYZ f u v = some w) (E0 : 0 ≤ E) (t0 : 0 ≤ t) (hu : |u' - u| ≤ E)
    (hv : |v' - v| ≤ E) : ∃ w', faceUVtoXYZ f u' v' = some w' ∧ |t * w'.x - t * w.x| ≤ t * E ∧ |t * w'.y - t * w.y| ≤ t * E ∧
      |t * w'.z - t * w.z| ≤ t * E := by
  have key : ∀ a b : ℝ, |a - b| ≤ E → |t * a - t * b| ≤ t * E := by
    intro a b hab
    rw [← mul_sub, abs_mul, abs_of_nonneg t0]
    exact mul_le_mul_of_nonneg_left hab t0
  have neg : ∀ a b : ℝ, |a - b| ≤ E → |-a - -b| ≤ E := by
    intro a b hab
    rw [← neg_sub', abs_neg]
    exact hab
  have same : ∀ a : ℝ, |a - a| ≤ E := by
    intro a
    rw [sub_self, abs_zero]
    exact E0
  have hf : f < 6 := by
    by_contra hf
    obtain ⟨n, rfl⟩ := Nat.exists_eq_add_of_le (not_lt.1 hf)
    rw [Nat.add_comm] at hw
    cases hw
  interval_cases f
  all_goals
    simp only [faceUVtoXYZ, Option.some.injEq] at hw
    subst hw
    exact ⟨_, rfl, key _ _ (by first | exact same _ | assumption | (apply neg; assumption)), key _ _ (by first | exact same _ | assumption | (apply neg; assumption)),
      key _ _ (by first | exact same _ | assumption | (apply neg; assumption))⟩

theorem grid_line_le {a b : Int} (h : a ≤ b) : uvLine (_root_.id : ℝ → ℝ) a ≤ uvLine (_root_.id : ℝ → ℝ) b := by
  refine c59_stToUV_strictMono.monotone ?_
  show (a : ℝ) / 2 ^ 30 ≤ (b : ℝ) / 2 ^ 30
  have : (a : ℝ) ≤ b := by exact_mod_cast h
  gcongr

theorem toPoint_dir {fl sin cos : ℝ → ℝ} (h : Rounding fl) (hsin : NearRel sin Real.sin) (hcos : NearRel cos Real.cos) (ll : LatLng ℝ) :
    |(LatLng.toPoint fl sin cos ll).x - (direction ll.lat ll.lng).x| ≤ 13 * eps53 ∧ |(LatLng.toPoint fl sin cos ll).y - (direction ll.lat ll.lng).y| ≤ 13 * eps53 ∧
    |(LatLng.toPoint fl sin cos ll).z - (direction ll.lat ll.lng).z| ≤ 13 * eps53 := by
  obtain ⟨px, py, pz⟩ := toPoint_err h hsin hcos ll
  have e0 := eps53_pos
  have t1' := tau200_le
  have hT := mul_le_mul_of_nonneg_left (Real.abs_cos_le_one ll.lat) (by linarith : 0 ≤ 12 * eps53)
  have hS := mul_le_mul_of_nonneg_left (Real.abs_sin_le_one ll.lat) (by linarith : 0 ≤ 4 * eps53)
  unfold direction
  rw [mul_comm (Real.cos ll.lat), mul_comm (Real.cos ll.lat)]
  refine ⟨px.trans ?_, py.trans ?_, pz.trans ?_⟩ <;> linarith

theorem near_unit {p d : Vec ℝ} (d1 : dot d d = 1) (px : |p.x - d.x| ≤ 13 * eps53) (py : |p.y - d.y| ≤ 13 * eps53) (pz : |p.z - d.z| ≤ 13 * eps53) :
    (|d.x| ≤ 1 ∧ |d.y| ≤ 1 ∧ |d.z| ≤ 1) ∧ ¬ IsZero p ∧ dot p p ≤ 8 := by
  have e0 := eps53_pos
  have e1 := eps53_le
  have dd : d.x * d.x + d.y * d.y + d.z * d.z = 1 := d1
  have one : |d.x| ≤ 1 ∧ |d.y| ≤ 1 ∧ |d.z| ≤ 1 := by
    refine ⟨?_, ?_, ?_⟩ <;> refine abs_le_of_sq_le_sq ?_ (by norm_num) <;>
      linarith [mul_self_nonneg d.x, mul_self_nonneg d.y, mul_self_nonneg d.z, pow_two d.x, pow_two d.y, pow_two d.z]
  refine ⟨one, ?_, ?_⟩
  · rintro ⟨z1, z2, z3⟩
    rw [z1, zero_sub, abs_neg] at px
    rw [z2, zero_sub, abs_neg] at py
    rw [z3, zero_sub, abs_neg] at pz
    have o : ∀ a : ℝ, |a| ≤ 13 * eps53 → a * a ≤ 1 / 10 := fun a ha => by
      rw [← abs_mul_abs_self]; nlinarith [abs_nonneg a]
    linarith [o _ px, o _ py, o _ pz]
  · have o : ∀ a b : ℝ, |b| ≤ 1 → |a - b| ≤ 13 * eps53 → a * a ≤ 2 := fun a b hb hab => by
      have := abs_sub_abs_le_abs_sub a b
      rw [← abs_mul_abs_self]
      nlinarith [abs_nonneg a]
    have := o _ _ one.1 px
    have := o _ _ one.2.1 py
    have := o _ _ one.2.2 pz
    unfold dot
    linarith

/-- **C115.** The cell computed from any latitude and longitude, with rounding, is a leaf with a point within `2^-43` of that latitude and longitude. -/
theorem c115_cell {fl sin cos : ℝ → ℝ} (h : Rounding fl) (hsin : NearRel sin Real.sin) (hcos : NearRel cos Real.cos) (ll : LatLng ℝ) :
    ∃ l C q, fromLatLng fl Real.sqrt sin cos ll = some l ∧ Valid l ∧ l.level = some 30 ∧ Cell.fromCellID _root_.id l = some C ∧ InCell C q ∧
      |q.x - (direction ll.lat ll.lng).x| ≤ 1 / 2 ^ 43 ∧ |q.y - (direction ll.lat ll.lng).y| ≤ 1 / 2 ^ 43 ∧ |q.z - (direction ll.lat ll.lng).z| ≤ 1 / 2 ^ 43 := by
  have e0 := eps53_pos
  have e1 := eps53_le
  obtain ⟨px, py, pz⟩ := toPoint_dir h hsin hcos ll
  have d1 := direction_dot ll
  obtain ⟨one, p0, _⟩ := near_unit d1 px py pz
  unfold fromLatLng
  generalize LatLng.toPoint fl sin cos ll = p at *
  generalize direction ll.lat ll.lng = d at *
  obtain ⟨l, u, v, r, h1, h2, h3, h4, h5, h6, h7⟩ := c61_tolerance h isSqrt_real p0
  obtain ⟨l', _, _, g1, g2, g3, _, _, g6⟩ := c61_total fl Real.sqrt p0
  rw [h1] at g1
  obtain rfl := Option.some.inj g1
  obtain ⟨f, u', v', w, t, k1, k2, t0, k3⟩ := c60_projection p0
  rw [h2] at k1
  simp only [Option.some.injEq, Prod.mk.injEq] at k1
  obtain ⟨rfl, rfl, rfl⟩ := k1
  have hsq := leaf_square g2 g3 g6
  obtain ⟨o, ho⟩ := g6
  obtain ⟨c1, c2⟩ := c68_from (_root_.id : ℝ → ℝ) g2 g3 hsq ho
  rw [h3] at c2
  obtain rfl := Option.some.inj c2
  have hf : l.face = vecFace p := by
    obtain ⟨_, _, _, e⟩ := xyzToFaceUV_total (_root_.id : ℝ → ℝ) p0
    rw [h2] at e
    simp only [Option.some.injEq, Prod.mk.injEq] at e
    exact e.1
  obtain ⟨a, a1, a2, a3⟩ := clamp_near (e := 1 / 2 ^ 44) (grid_line_le (by omega)) (by positivity) h4 h5
  obtain ⟨b, b1, b2, b3⟩ := clamp_near (e := 1 / 2 ^ 44) (grid_line_le (by omega)) (by positivity) h6 h7
  obtain ⟨w', m1, m2, m3, m4⟩ := uv_move (t := t) k2 (by positivity) t0.le a3 b3
  have t2 : t ≤ 101 / 100 := by
    have big : |w.x| = 1 ∨ |w.y| = 1 ∨ |w.z| = 1 := by
      clear * - k2
      generalize l.face = f at k2
      rcases f with _ | _ | _ | _ | _ | _ | n <;> simp only [faceUVtoXYZ, Option.some.injEq] at k2
      all_goals first | cases k2; done | (subst k2; simp)
    have fin : ∀ a b c : ℝ, a = t * b → |b| = 1 → |a - c| ≤ 13 * eps53 → |c| ≤ 1 → t ≤ 101 / 100 := by
      intro a b c ha hb hac hc
      have := abs_sub_abs_le_abs_sub a c
      rw [ha, abs_mul, hb, abs_of_pos t0] at this
      rw [ha] at hac
      linarith
    rw [k3] at px py pz
    rcases big with q | q | q
    · exact fin _ _ _ rfl q px one.1
    · exact fin _ _ _ rfl q py one.2.1
    · exact fin _ _ _ rfl q pz one.2.2
  refine ⟨l, _, smul t w', h1, g2, g3, c1, ⟨a, b, w', t, ⟨⟨a1, a2⟩, ⟨b1, b2⟩⟩, by rw [← hf]; exact m1, t0, rfl⟩, ?_⟩
  have E : (1 : ℝ) / 2 ^ 43 = 1024 * eps53 := by unfold eps53; norm_num
  have E' : (1 : ℝ) / 2 ^ 44 = 512 * eps53 := by unfold eps53; norm_num
  rw [E'] at m2 m3 m4
  rw [E]
  have tb := mul_le_mul_of_nonneg_right t2 (by linarith : 0 ≤ 512 * eps53)
  have fin : ∀ a b c : ℝ, |a - b| ≤ t * (512 * eps53) → |b - c| ≤ 13 * eps53 → |a - c| ≤ 1024 * eps53 := by
    intro a b c q1 q2
    have := abs_add_le (a - b) (b - c)
    rw [sub_add_sub_cancel] at this
    linarith
  rw [k3] at px py pz
  exact ⟨fin _ _ _ m2 px, fin _ _ _ m3 py, fin _ _ _ m4 pz⟩

/-- A position with longitude far outside `[-π, π]`. -/
example : ∃ l C q, fromLatLng rne Real.sqrt Real.sin Real.cos ⟨1 / 2, 1000⟩ = some l ∧ Valid l ∧ l.level = some 30 ∧
    Cell.fromCellID _root_.id l = some C ∧ InCell C q ∧ |q.x - (direction (1 / 2) 1000).x| ≤ 1 / 2 ^ 43 ∧
    |q.y - (direction (1 / 2) 1000).y| ≤ 1 / 2 ^ 43 ∧ |q.z - (direction (1 / 2) 1000).z| ≤ 1 / 2 ^ 43 :=
  c115_cell rounding_rne (nearRel_self _) (nearRel_self _) ⟨1 / 2, 1000⟩

/-! ## Latitude and longitude to point and back -/

/-- Two angles with nearby sines and cosines differ by a whole number of turns, nearly. -/
theorem angle_near {a b c s E : ℝ} (c0 : 0 < c) (s0 : 0 ≤ s) (E0 : 0 ≤ E) (E1 : E ≤ 1 / 1000) (h1 : |s * Real.cos a - c * Real.cos b| ≤ E * c)
    (h2 : |s * Real.sin a - c * Real.sin b| ≤ E * c) : ∃ n : ℤ, |a - b - 2 * Real.pi * n| ≤ 13 / 4 * E := by
  have pp := Real.pi_pos
  have p2 := Real.pi_lt_d2
  set n := round ((a - b) / (2 * Real.pi)) with hn
  set d := a - b - 2 * Real.pi * n with hd
  have d1 : |d| ≤ Real.pi := by
    have := abs_sub_round ((a - b) / (2 * Real.pi))
    rw [← hn] at this
    have e : d = ((a - b) / (2 * Real.pi) - n) * (2 * Real.pi) := by rw [hd]; field_simp
    rw [e, abs_mul, abs_of_pos (by positivity : 0 < 2 * Real.pi)]
    have := mul_le_mul_of_nonneg_right this (by positivity : 0 ≤ 2 * Real.pi)
    linarith
  have hcos : Real.cos d = Real.cos (a - b) := by
    rw [hd, show a - b - 2 * Real.pi * n = a - b - n * (2 * Real.pi) by ring, Real.cos_sub_int_mul_two_pi]
  have hsin : Real.sin d = Real.sin (a - b) := by
    rw [hd, show a - b - 2 * Real.pi * n = a - b - n * (2 * Real.pi) by ring, Real.sin_sub_int_mul_two_pi]
  have ab := Real.sin_sq_add_cos_sq b
  have m : ∀ x y : ℝ, |x| ≤ E * c → |y| ≤ 1 → |x * y| ≤ E * c := by
    intro x y hx hy
    rw [abs_mul]
    have := mul_le_mul hx hy (abs_nonneg _) (by positivity)
    linarith
  have x1 := abs_le.1 (m _ _ h1 (Real.abs_cos_le_one b))
  have x2 := abs_le.1 (m _ _ h2 (Real.abs_sin_le_one b))
  have x3 := abs_le.1 (m _ _ h1 (Real.abs_sin_le_one b))
  have x4 := abs_le.1 (m _ _ h2 (Real.abs_cos_le_one b))
  have C : c - 2 * (E * c) ≤ s * Real.cos d := by
    rw [hcos, Real.cos_sub]
    have : s * (Real.cos a * Real.cos b + Real.sin a * Real.sin b) = c + (s * Real.cos a - c * Real.cos b) * Real.cos b +
        (s * Real.sin a - c * Real.sin b) * Real.sin b := by linear_combination c * ab
    linarith
  have S : |s * Real.sin d| ≤ 2 * (E * c) := by
    rw [hsin, Real.sin_sub]
    have : s * (Real.sin a * Real.cos b - Real.cos a * Real.sin b) = (s * Real.sin a - c * Real.sin b) * Real.cos b -
        (s * Real.cos a - c * Real.cos b) * Real.sin b := by ring
    rw [this, abs_le]
    constructor <;> linarith
  have Ec : E * c ≤ c / 1000 := by
    have := mul_le_mul_of_nonneg_right E1 c0.le
    linarith
  have sd : s * Real.cos d ≤ s := by
    have := mul_le_mul_of_nonneg_left (Real.cos_le_one d) s0
    linarith
  have s1 : 998 / 1000 * c ≤ s := by linarith
  have sp : 0 < s := by linarith
  have cp : 0 < Real.cos d := by
    by_contra hh
    have := mul_nonpos_of_nonneg_of_nonpos s0 (not_lt.1 hh)
    linarith
  have d2 : |d| ≤ Real.pi / 2 := by
    by_contra hh
    have := Real.cos_nonpos_of_pi_div_two_le_of_le (not_le.1 hh).le (by linarith)
    rw [Real.cos_abs] at this
    linarith
  have d3 : |Real.sin d| ≤ 2005 / 1000 * E := by
    rw [abs_mul, abs_of_pos sp] at S
    have g1 := mul_le_mul_of_nonneg_right s1 (abs_nonneg (Real.sin d))
    have g2 : c * (998 / 1000 * |Real.sin d|) ≤ c * (2 * E) := by linarith
    have g3 := le_of_mul_le_mul_left g2 c0
    linarith
  have d4 := Real.mul_abs_le_abs_sin d2
  rw [div_mul_eq_mul_div, div_le_iff₀ pp] at d4
  refine ⟨n, ?_⟩
  have d5 := mul_le_mul d3 p2.le pp.le (by linarith)
  norm_num at d5
  linarith

theorem cos_valid {x : ℝ} (h : |x| ≤ piF64 / 2) : 1 / 10 ^ 17 ≤ Real.cos x := by
  have h1 := Real.pi_gt_d20
  have hp : (piF64 : ℝ) < 3.1415926535897931160 := by unfold piF64; norm_num
  have h2 : 1 / 2 * (5 / 10 ^ 17) ≤ Real.cos x := by
    rw [← Real.cos_abs, ← Real.sin_pi_div_two_sub]
    have a : 5 / 10 ^ 17 ≤ Real.pi / 2 - |x| := by norm_num at *; linarith
    have b : Real.pi / 2 - |x| ≤ Real.pi / 2 := by linarith [abs_nonneg x]
    have c := Real.mul_le_sin (by linarith [show (0 : ℝ) ≤ 5 / 10 ^ 17 by positivity]) b
    have d : 1 / 2 ≤ 2 / Real.pi := by
      rw [div_le_div_iff₀ (by norm_num) Real.pi_pos]
      linarith [Real.pi_lt_d2]
    have := mul_le_mul d a (by positivity) (by positivity)
    linarith
  linarith

/-- **C115.** A valid latitude and longitude, converted to a point and back with rounding, give the same latitude up to `2^-45` and, up to `2^-47`, the
same longitude plus a whole number of turns; no turns except next to the antimeridian. This holds also next to the poles, where `cos lat` is as small
as `2^-54`. -/
theorem c115_latlng {fl sin cos : ℝ → ℝ} {atan2 : ℝ → ℝ → ℝ} (h : Rounding fl) (hsin : NearRel sin Real.sin) (hcos : NearRel cos Real.cos)
    (ha : NearArg atan2) {ll ll' : LatLng ℝ} (hv : ll.isValid piF64 = true)
    (he : ll' = LatLng.ofPoint fl Real.sqrt atan2 (LatLng.toPoint fl sin cos ll)) :
    |ll'.lat - ll.lat| ≤ 1 / 2 ^ 45 ∧
      ∃ n : ℤ, |ll'.lng - ll.lng - 2 * Real.pi * n| ≤ 1 / 2 ^ 47 ∧ (|ll.lng| ≤ Real.pi - 1 / 2 ^ 46 → n = 0) := by
  unfold LatLng.isValid at hv
  simp only [Bool.and_eq_true, decide_eq_true_eq] at hv
  obtain ⟨hlat, hlng⟩ := hv
  have c0 := cos_valid hlat
  have e0 := eps53_pos
  have e1 := eps53_le
  have t0 := tau200_pos
  have t1 := tau200_le
  have pp := Real.pi_gt_d2
  have cp : 0 < Real.cos ll.lat := lt_of_lt_of_le (by positivity) c0
  obtain ⟨px, py, pz⟩ := toPoint_err h hsin hcos ll
  obtain ⟨qx, qy, qz⟩ := toPoint_dir h hsin hcos ll
  have d1 := direction_dot ll
  have tc : 4 * tau200 ≤ eps53 * Real.cos ll.lat := by
    have := mul_le_mul_of_nonneg_left c0 e0.le
    linarith
  rw [abs_of_pos cp] at px py
  have hz : |(LatLng.toPoint fl sin cos ll).z - Real.sin ll.lat| ≤ 5 * eps53 := by
    have := mul_le_mul_of_nonneg_left (Real.abs_sin_le_one ll.lat) (by linarith : 0 ≤ 4 * eps53)
    linarith
  have px' := px.trans (by linarith : _ ≤ 13 * eps53 * Real.cos ll.lat)
  have py' := py.trans (by linarith : _ ≤ 13 * eps53 * Real.cos ll.lat)
  have hlat2 : |ll.lat| ≤ Real.pi / 2 := by
    refine hlat.trans ?_
    have h1 := Real.pi_gt_d20
    have hp : (piF64 : ℝ) < 3.1415926535897931160 := by unfold piF64; norm_num
    norm_num at *
    linarith
  obtain ⟨_, n0, n8⟩ := near_unit d1 qx qy qz
  obtain ⟨t1, t2, r, s, H⟩ := ofPoint_err h ha n0 n8
  rw [← he] at H
  generalize LatLng.toPoint fl sin cos ll = p at *
  have pc := Real.cos_sq_add_sin_sq ll.lng
  have bl := H.lat
  have bn := H.lng
  have a1 := H.b1
  have a2 := H.b2
  set c := Real.cos ll.lat with hc
  have hr : |r - c| ≤ 19 * eps53 := by
    have w1 : p.x * Real.cos ll.lng + p.y * Real.sin ll.lng ≤ r := by
      have : p.x * Real.cos ll.lng + p.y * Real.sin ll.lng = r * Real.cos (t2 - ll.lng) := by
        rw [Real.cos_sub, ← H.cos2, ← H.sin2]; ring
      rw [this]
      have := mul_le_mul_of_nonneg_left (Real.cos_le_one (t2 - ll.lng)) H.r0
      linarith
    have w2 := mul_le_mul_of_nonneg_left w1 cp.le
    have sx := pow_le_pow_left₀ (abs_nonneg _) px' 2
    have sy := pow_le_pow_left₀ (abs_nonneg _) py' 2
    rw [sq_abs] at sx sy
    have w3 : (r - c) ^ 2 ≤ (p.x - Real.cos ll.lng * c) ^ 2 + (p.y - Real.sin ll.lng * c) ^ 2 := by
      have e : (p.x - Real.cos ll.lng * c) ^ 2 + (p.y - Real.sin ll.lng * c) ^ 2 =
          r ^ 2 - 2 * (c * (p.x * Real.cos ll.lng + p.y * Real.sin ll.lng)) + c ^ 2 := by
        rw [H.r2]
        linear_combination c ^ 2 * pc
      rw [e]
      linarith [show (r - c) ^ 2 = r ^ 2 - 2 * (c * r) + c ^ 2 by ring]
    refine abs_le_of_sq_le_sq ?_ (by linarith)
    have c1 : (eps53 * c) ^ 2 ≤ eps53 ^ 2 := by
      refine pow_le_pow_left₀ (by positivity) ?_ 2
      have := mul_le_mul_of_nonneg_left (Real.cos_le_one ll.lat) e0.le
      linarith
    have := sq_nonneg eps53
    linarith [show (13 * eps53 * c) ^ 2 = 169 * (eps53 * c) ^ 2 by ring, show (19 * eps53) ^ 2 = 361 * eps53 ^ 2 by ring]
  obtain ⟨m, hm⟩ := angle_near (a := t1) (b := ll.lat) (c := 1) (s := s) (E := 47 * eps53) one_pos H.s0.le (by linarith) (by linarith)
    (by
      have := abs_add_le (s * Real.cos t1 - r) (r - c)
      rw [sub_add_sub_cancel] at this
      rw [one_mul, mul_one]
      linarith [H.cos1])
    (by
      have := abs_add_le (s * Real.sin t1 - p.z) (p.z - Real.sin ll.lat)
      rw [sub_add_sub_cancel] at this
      rw [one_mul, mul_one]
      linarith [H.sin1])
  obtain ⟨n, hn⟩ := angle_near (a := t2) (b := ll.lng) (c := c) (s := r) (E := 13 * eps53) cp H.r0 (by linarith) (by linarith)
    (by rw [H.cos2, mul_comm c]; exact px') (by rw [H.sin2, mul_comm c]; exact py')
  have turn : ∀ (k : ℤ) (a b x : ℝ), |a - b - 2 * Real.pi * k| ≤ x → |a| + |b| + x < 2 * Real.pi → k = 0 := by
    intro k a b x h1 h2
    have h3 := abs_add_le (a - b) (-(a - b - 2 * Real.pi * k))
    rw [show a - b + -(a - b - 2 * Real.pi * k) = 2 * Real.pi * k by ring, abs_neg, abs_mul, abs_of_pos (by linarith : 0 < 2 * Real.pi)] at h3
    have h4 := abs_sub a b
    have h5 : 2 * Real.pi * |(k : ℝ)| < 2 * Real.pi * 1 := by linarith
    have h6 := lt_of_mul_lt_mul_left h5 (by linarith)
    rw [← Int.cast_abs] at h6
    have h7 : |k| < 1 := by exact_mod_cast h6
    exact Int.abs_lt_one_iff.1 h7
  rw [show (1 : ℝ) / 2 ^ 45 = 256 * eps53 by unfold eps53; norm_num, show (1 : ℝ) / 2 ^ 46 = 128 * eps53 by unfold eps53; norm_num,
    show (1 : ℝ) / 2 ^ 47 = 64 * eps53 by unfold eps53; norm_num]
  obtain rfl := turn m _ _ _ hm (by linarith)
  constructor
  · have := abs_add_le (ll'.lat - t1) (t1 - ll.lat)
    rw [sub_add_sub_cancel] at this
    rw [Int.cast_zero, mul_zero, sub_zero] at hm
    linarith
  · refine ⟨n, ?_, fun hl => turn n _ _ _ hn (by linarith)⟩
    have := abs_add_le (ll'.lng - t2) (t2 - ll.lng - 2 * Real.pi * n)
    rw [show ll'.lng - t2 + (t2 - ll.lng - 2 * Real.pi * n) = ll'.lng - ll.lng - 2 * Real.pi * n by ring] at this
    linarith

/-- At the north pole, up to the rounding of `π / 2`, with a longitude of `3`. -/
example : LatLng.isValid piF64 (⟨piF64 / 2, 3⟩ : LatLng ℝ) = true ∧ |(3 : ℝ)| ≤ Real.pi - 1 / 2 ^ 46 := by
  constructor
  · unfold LatLng.isValid piF64
    norm_num [abs_of_pos]
  · have := Real.pi_gt_d2
    norm_num at *
    linarith

end Verif
