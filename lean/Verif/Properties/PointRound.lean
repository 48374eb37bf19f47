import Verif.Proofs.Near
import Verif.Properties.PointCell
import Verif.Properties.Vector

/-!
# From points to cells and back with rounding: C61

The theorems are about every rounding function with the error bound of IEEE 754, in particular about exact arithmetic.
-/

namespace Verif
open Rust Spec CellID

variable {K : Type} [Field K] [LinearOrder K] [IsStrictOrderedRing K]

/-- `normalize` of a vector with components in `[-1, 1]` and one of absolute value 1 is close to a multiple of it. -/
theorem normalize_near {fl sqrt : K → K} (h : Rounding fl) (hs : IsSqrt sqrt) {w : Vec K} (hx : |w.x| ≤ 1) (hy : |w.y| ≤ 1) (hz : |w.z| ≤ 1)
    (h1 : 1 ≤ w.x * w.x + w.y * w.y + w.z * w.z) :
    ∃ k, 1 / 2 ≤ k ∧ k ≤ 3 / 2 ∧ |(w.normalize fl sqrt).x - w.x * k| ≤ 3 / 2 ^ 53 ∧ |(w.normalize fl sqrt).y - w.y * k| ≤ 3 / 2 ^ 53 ∧
      |(w.normalize fl sqrt).z - w.z * k| ≤ 3 / 2 ^ 53 := by
  obtain ⟨x, y, z⟩ := w
  dsimp only at *
  have sq : ∀ t : K, |t| ≤ 1 → 0 ≤ t * t ∧ t * t ≤ 1 ∧ |fl (t * t) - t * t| ≤ 2 / 2 ^ 53 := by
    intro t ht
    have a1 : t * t ≤ 1 := by rw [← abs_mul_abs_self]; nlinarith [abs_nonneg t]
    have a0 := mul_self_nonneg t
    exact ⟨a0, a1, (near_self h (B := 1) (by rw [abs_of_nonneg a0]; exact a1) (by norm_num)).trans (by norm_num)⟩
  obtain ⟨x0, x1, x2⟩ := sq x hx
  obtain ⟨y0, y1, y2⟩ := sq y hy
  obtain ⟨z0, z1, z2⟩ := sq z hz
  have n1 : |fl (x * x) + fl (y * y) - (x * x + y * y)| ≤ 4 / 2 ^ 53 := by
    have := abs_add_le (fl (x * x) - x * x) (fl (y * y) - y * y)
    have e : fl (x * x) - x * x + (fl (y * y) - y * y) = fl (x * x) + fl (y * y) - (x * x + y * y) := by ring
    rw [e] at this
    refine this.trans ?_
    norm_num at *
    linarith
  have n2 := near_fl h n1 (B := 3) ((abs_of_near n1 (P := 2) (by rw [abs_of_nonneg] <;> linarith)).trans (by norm_num)) (by norm_num)
  have n3 : |fl (fl (x * x) + fl (y * y)) + fl (z * z) - (x * x + y * y + z * z)| ≤ 10 / 2 ^ 53 := by
    have := abs_add_le (fl (fl (x * x) + fl (y * y)) - (x * x + y * y)) (fl (z * z) - z * z)
    have e : fl (fl (x * x) + fl (y * y)) - (x * x + y * y) + (fl (z * z) - z * z) =
      fl (fl (x * x) + fl (y * y)) + fl (z * z) - (x * x + y * y + z * z) := by ring
    rw [e] at this
    refine this.trans ?_
    norm_num at *
    linarith
  have n4 := near_fl h n3 (B := 4) ((abs_of_near n3 (P := 3) (by rw [abs_of_nonneg] <;> linarith)).trans (by norm_num)) (by norm_num)
  generalize hN : fl (fl (fl (x * x) + fl (y * y)) + fl (z * z)) = N at n4
  have hN1 : N ≤ 3 + 1 / 16 ∧ 1 - 1 / 16 ≤ N := by
    rw [abs_le] at n4
    norm_num at n4
    constructor <;> linarith
  obtain ⟨r0, r1⟩ := hs N (by linarith)
  have r2 : 15 / 16 ≤ sqrt N := by nlinarith
  have r3 : sqrt N ≤ 15 / 8 := by nlinarith
  have r4 := near_self h (x := sqrt N) (B := 2) (by rw [abs_of_nonneg r0]; linarith) (by norm_num)
  generalize hR : fl (sqrt N) = R at r4
  have hR1 : 7 / 8 ≤ R ∧ R ≤ 31 / 16 := by
    rw [abs_le] at r4
    norm_num at r4
    constructor <;> linarith
  have hRp : 0 < R := by linarith
  have k1 : 16 / 31 ≤ 1 / R ∧ 1 / R ≤ 8 / 7 := by
    constructor
    · rw [le_div_iff₀ hRp]; linarith
    · rw [div_le_iff₀ hRp]; linarith
  have k2 := near_self h (x := 1 / R) (B := 2) (by rw [abs_of_nonneg] <;> linarith) (by norm_num)
  generalize hk : fl (1 / R) = k at k2
  have hk1 : 1 / 2 ≤ k ∧ k ≤ 3 / 2 := by
    rw [abs_le] at k2
    have e : ((2 : K) + 1) / 2 ^ 53 ≤ 1 / 100 := by norm_num
    constructor <;> linarith
  have e : Vec.normalize fl sqrt ⟨x, y, z⟩ = ⟨fl (x * k), fl (y * k), fl (z * k)⟩ := by
    unfold Vec.normalize
    rw [if_neg]
    · unfold Vec.norm Vec.norm2 Vec.dot Vec.scale
      dsimp only
      rw [hN, hR, hk]
    · rintro ⟨rfl, rfl, rfl⟩
      norm_num at h1
  rw [e]
  have fin : ∀ t : K, |t| ≤ 1 → |fl (t * k) - t * k| ≤ 3 / 2 ^ 53 := by
    intro t ht
    refine (near_self h (B := 3 / 2) ?_ (by norm_num)).trans (by norm_num)
    rw [abs_mul, abs_of_nonneg (by linarith : 0 ≤ k)]
    nlinarith [abs_nonneg t]
  exact ⟨k, hk1.1, hk1.2, fin x hx, fin y hy, fin z hz⟩

/-- The quotient of two components after `normalize`. -/
theorem ratio_near {fl : K → K} (h : Rounding fl) {a b k u : K} (hk : 1 / 2 ≤ k) (hu : |u| ≤ 1) (ha : |a - u * k| ≤ 3 / 2 ^ 53)
    (hb : |b - k| ≤ 3 / 2 ^ 53) : |fl (a / b) - u| ≤ 1 / 2 ^ 48 := by
  have hb0 : 1 / 4 ≤ b := by rw [abs_le] at hb; norm_num at hb; linarith
  have e : a / b - u = (a - u * b) / b := by field_simp
  have n1 : |a - u * b| ≤ 6 / 2 ^ 53 := by
    have e2 : a - u * b = (a - u * k) - u * (b - k) := by ring
    rw [e2]
    refine (abs_sub _ _).trans ?_
    rw [abs_mul]
    norm_num at *
    nlinarith [abs_nonneg (b - k), abs_nonneg u]
  have n2 : |a / b - u| ≤ 24 / 2 ^ 53 := by
    rw [e, abs_div, abs_of_pos (by linarith : 0 < b), div_le_iff₀ (by linarith)]
    norm_num at *
    linarith
  exact (near_fl h n2 ((abs_of_near n2 hu).trans (by norm_num : (1 : K) + 24 / 2 ^ 53 ≤ 2)) (by norm_num)).trans (by norm_num)

theorem ratio_near_neg {fl : K → K} (h : Rounding fl) {a b k u : K} (hk : 1 / 2 ≤ k) (hu : |u| ≤ 1) (ha : |a + u * k| ≤ 3 / 2 ^ 53)
    (hb : |b + k| ≤ 3 / 2 ^ 53) : |fl (a / b) - u| ≤ 1 / 2 ^ 48 := by
  have := ratio_near h hk hu (a := -a) (b := -b) (by rw [← abs_neg]; rwa [neg_sub, sub_neg_eq_add, add_comm])
    (by rw [← abs_neg]; rwa [neg_sub, sub_neg_eq_add, add_comm])
  rwa [neg_div_neg_eq] at this

/-- `vecFace` by its characterization. -/
theorem vecFace_of {x y z k u v : K} (hk : 1 / 2 ≤ k) (hu : |u| ≤ 1 - 1 / 2 ^ 40) (hv : |v| ≤ 1 - 1 / 2 ^ 40) (hx : |x - k| ≤ 3 / 2 ^ 53)
    (hy : |y - u * k| ≤ 3 / 2 ^ 53) (hz : |z - v * k| ≤ 3 / 2 ^ 53) : |y| < x ∧ |z| < x := by
  have key : ∀ t u : K, |u| ≤ 1 - 1 / 2 ^ 40 → |t - u * k| ≤ 3 / 2 ^ 53 → |t| < x := by
    intro t u hu ht
    have h1 : |u * k| ≤ k - 1 / 2 ^ 41 := by
      rw [abs_mul, abs_of_nonneg (by linarith : 0 ≤ k)]
      have := mul_le_mul_of_nonneg_right hu (by linarith : 0 ≤ k)
      norm_num at *
      linarith
    have h2 := abs_of_near ht h1
    rw [abs_le] at hx
    norm_num at *
    linarith
  exact ⟨key y u hu hy, key z v hv hz⟩

theorem face_char (r : Vec K) : (|r.y| < r.x → |r.z| < r.x → vecFace r = 0) ∧ (|r.x| < r.y → |r.z| < r.y → vecFace r = 1) ∧
    (|r.x| < r.z → |r.y| < r.z → vecFace r = 2) ∧ (|r.y| < -r.x → |r.z| < -r.x → vecFace r = 3) ∧
    (|r.x| < -r.y → |r.z| < -r.y → vecFace r = 4) ∧ (|r.x| < -r.z → |r.y| < -r.z → vecFace r = 5) := by
  have h0 := abs_nonneg r.x
  have h1 := abs_nonneg r.y
  have h2 := abs_nonneg r.z
  have key : r.x ≠ 0 ∨ r.y ≠ 0 ∨ r.z ≠ 0 → ¬ (r.x = 0 ∧ r.y = 0 ∧ r.z = 0) := by tauto
  have p : ∀ t : K, 0 < t → |t| = t := fun t ht => abs_of_pos ht
  have n : ∀ t : K, 0 < -t → |t| = -t := fun t ht => abs_of_neg (neg_pos.1 ht)
  refine ⟨?_, ?_, ?_, ?_, ?_, ?_⟩ <;> intro a b
  · have q := p r.x (h1.trans_lt a)
    rcases vecFace_cases r (key (Or.inl (by linarith))) with c | c | c | c | c | c <;> grind
  · have q := p r.y (h0.trans_lt a)
    rcases vecFace_cases r (key (Or.inr (Or.inl (by linarith)))) with c | c | c | c | c | c <;> grind
  · have q := p r.z (h0.trans_lt a)
    rcases vecFace_cases r (key (Or.inr (Or.inr (by linarith)))) with c | c | c | c | c | c <;> grind
  · have q := n r.x (h1.trans_lt a)
    rcases vecFace_cases r (key (Or.inl (by linarith))) with c | c | c | c | c | c <;> grind
  · have q := n r.y (h0.trans_lt a)
    rcases vecFace_cases r (key (Or.inr (Or.inl (by linarith)))) with c | c | c | c | c | c <;> grind
  · have q := n r.z (h0.trans_lt a)
    rcases vecFace_cases r (key (Or.inr (Or.inr (by linarith)))) with c | c | c | c | c | c <;> grind

/-- Normalizing a point of a face and projecting it back gives nearly the same coordinates on the same face. -/
theorem project_near {fl sqrt : K → K} (h : Rounding fl) (hs : IsSqrt sqrt) {f : Nat} (hf : f < 6) {u v : K} (hu : |u| ≤ 1 - 1 / 2 ^ 40)
    (hv : |v| ≤ 1 - 1 / 2 ^ 40) {w : Vec K} (hw : faceUVtoXYZ f u v = some w) :
    ¬ IsZero (w.normalize fl sqrt) ∧ vecFace (w.normalize fl sqrt) = f ∧
    ∃ u' v', xyzToFaceUV fl (w.normalize fl sqrt) = some (f, u', v') ∧ |u' - u| ≤ 1 / 2 ^ 48 ∧ |v' - v| ≤ 1 / 2 ^ 48 := by
  have hu1 : |u| ≤ 1 := hu.trans (by norm_num)
  have hv1 : |v| ≤ 1 := hv.trans (by norm_num)
  have hun : |-u| ≤ 1 - 1 / 2 ^ 40 := by rwa [abs_neg]
  have hvn : |-v| ≤ 1 - 1 / 2 ^ 40 := by rwa [abs_neg]
  have su := mul_self_nonneg u
  have sv := mul_self_nonneg v
  have hb : |w.x| ≤ 1 ∧ |w.y| ≤ 1 ∧ |w.z| ≤ 1 ∧ 1 ≤ w.x * w.x + w.y * w.y + w.z * w.z := by
    interval_cases f <;> simp only [faceUVtoXYZ, Option.some.injEq] at hw <;> subst hw <;> dsimp only <;>
      refine ⟨?_, ?_, ?_, ?_⟩ <;> first | (simp only [abs_neg, abs_one]; first | exact le_refl _ | assumption) | nlinarith
  obtain ⟨k, k1, k2, kx, ky, kz⟩ := normalize_near h hs hb.1 hb.2.1 hb.2.2.1 hb.2.2.2
  generalize w.normalize fl sqrt = q at *
  obtain ⟨x, y, z⟩ := q
  have fc := face_char (⟨x, y, z⟩ : Vec K)
  dsimp only at *
  have nz : ∀ s t : K, |s| < t → t ≠ 0 := fun s t hst => ((abs_nonneg s).trans_lt hst).ne'
  have sw : ∀ a b : K, |a - b| = |-a - -b| := fun a b => by rw [← abs_neg]; congr 1; ring
  unfold xyzToFaceUV
  interval_cases f <;> simp only [faceUVtoXYZ, Option.some.injEq] at hw <;> subst hw <;> dsimp only at * <;>
    simp only [one_mul, neg_mul] at kx ky kz
  · obtain ⟨g1, g2⟩ := vecFace_of k1 hu hv kx ky kz
    have e := fc.1 g1 g2
    rw [e]
    exact ⟨fun c => nz _ _ g1 c.1, rfl, _, _, rfl, ratio_near h k1 hu1 ky kx, ratio_near h k1 hv1 kz kx⟩
  · have kx' : |-x - u * k| ≤ 3 / 2 ^ 53 := by rw [sw]; simpa using kx
    obtain ⟨g1, g2⟩ := vecFace_of k1 hu hv ky kx' kz
    rw [abs_neg] at g1
    have e := fc.2.1 g1 g2
    rw [e]
    exact ⟨fun c => nz _ _ g1 c.2.1, rfl, _, _, rfl, ratio_near h k1 hu1 kx' ky, ratio_near h k1 hv1 kz ky⟩
  · have kx' : |-x - u * k| ≤ 3 / 2 ^ 53 := by rw [sw]; simpa using kx
    have ky' : |-y - v * k| ≤ 3 / 2 ^ 53 := by rw [sw]; simpa using ky
    obtain ⟨g1, g2⟩ := vecFace_of k1 hu hv kz kx' ky'
    rw [abs_neg] at g1 g2
    have e := fc.2.2.1 g1 g2
    rw [e]
    exact ⟨fun c => nz _ _ g1 c.2.2, rfl, _, _, rfl, ratio_near h k1 hu1 kx' kz, ratio_near h k1 hv1 ky' kz⟩
  · have kx' : |-x - k| ≤ 3 / 2 ^ 53 := by rw [sw]; simpa using kx
    have ky' : |-y - v * k| ≤ 3 / 2 ^ 53 := by rw [sw]; simpa using ky
    have kz' : |-z - u * k| ≤ 3 / 2 ^ 53 := by rw [sw]; simpa using kz
    obtain ⟨g1, g2⟩ := vecFace_of k1 hv hu kx' ky' kz'
    rw [abs_neg] at g1 g2
    have e := fc.2.2.2.1 g1 g2
    rw [e]
    refine ⟨fun c => nz _ _ g1 (neg_eq_zero.2 c.1), rfl, _, _, rfl, ?_, ?_⟩
    · rw [← neg_div_neg_eq z x]; exact ratio_near h k1 hu1 kz' kx'
    · rw [← neg_div_neg_eq y x]; exact ratio_near h k1 hv1 ky' kx'
  · have ky' : |-y - k| ≤ 3 / 2 ^ 53 := by rw [sw]; simpa using ky
    have kz' : |-z - u * k| ≤ 3 / 2 ^ 53 := by rw [sw]; simpa using kz
    obtain ⟨g1, g2⟩ := vecFace_of k1 hv hu ky' kx kz'
    rw [abs_neg] at g2
    have e := fc.2.2.2.2.1 g1 g2
    rw [e]
    refine ⟨fun c => nz _ _ g1 (neg_eq_zero.2 c.2.1), rfl, _, _, rfl, ?_, ?_⟩
    · rw [← neg_div_neg_eq z y]; exact ratio_near h k1 hu1 kz' ky'
    · rw [neg_div y x, ← div_neg x]; exact ratio_near h k1 hv1 kx ky'
  · have kz' : |-z - k| ≤ 3 / 2 ^ 53 := by rw [sw]; simpa using kz
    obtain ⟨g1, g2⟩ := vecFace_of k1 hv hu kz' kx ky
    have e := fc.2.2.2.2.2 g1 g2
    rw [e]
    refine ⟨fun c => nz _ _ g1 (neg_eq_zero.2 c.2.2), rfl, _, _, rfl, ?_, ?_⟩
    · rw [neg_div z y, ← div_neg y]; exact ratio_near h k1 hu1 ky kz'
    · rw [neg_div z x, ← div_neg x]; exact ratio_near h k1 hv1 kx kz'

/-- From a coordinate of a cell's centre to the index of the leaf. -/
theorem stToIJ_near [FloorRing K] {fl : K → K} (h : Rounding fl) {s : K} {i0 S : Int} (hS : 0 < S) (h0 : 0 ≤ i0) (h1 : i0 + S ≤ 2 ^ 30)
    (hs : |s - ((2 * i0 + S : Int) : K) / 2 ^ 31| ≤ 1 / 2 ^ 40) : i0 ≤ stToIJ fl s ∧ stToIJ fl s < i0 + S := by
  have hi0 : (0 : K) ≤ i0 := by exact_mod_cast h0
  have hiS : (i0 : K) + S ≤ 2 ^ 30 := by exact_mod_cast h1
  have hS1 : (1 : K) ≤ S := by exact_mod_cast hS
  have e : (2 : K) ^ 30 * (((2 * i0 + S : Int) : K) / 2 ^ 31) = i0 + S / 2 := by push_cast; ring
  have a1 : |2 ^ 30 * s - (i0 + S / 2)| ≤ 1 / 2 ^ 10 := by
    rw [← e, ← mul_sub, abs_mul, abs_of_pos (by positivity : (0 : K) < 2 ^ 30)]
    calc (2 : K) ^ 30 * |s - ((2 * i0 + S : Int) : K) / 2 ^ 31| ≤ 2 ^ 30 * (1 / 2 ^ 40) := by gcongr
      _ = 1 / 2 ^ 10 := by norm_num
  have a2 := near_fl h a1 (B := 2 ^ 31) ((abs_of_near a1 (P := 2 ^ 30) (by rw [abs_of_nonneg] <;> linarith)).trans (by norm_num)) (by norm_num)
  rw [abs_le] at a2
  norm_num at a2
  have f1 : i0 ≤ ⌊fl (2 ^ 30 * s)⌋ := by rw [Int.le_floor]; norm_num; linarith
  have f2 : ⌊fl (2 ^ 30 * s)⌋ < i0 + S := by rw [Int.floor_lt]; push_cast; norm_num; linarith
  unfold stToIJ clamp f64ToI32 maxSize
  generalize ⌊fl (2 ^ 30 * s)⌋ = x at *
  have e1 : max (-2 ^ 31) (min (2 ^ 31 - 1) x) = x := by omega
  rw [e1, if_neg (by omega), if_neg (by omega)]
  exact ⟨f1, f2⟩

/-- The coordinates of a cell's centre, computed with rounding. -/
theorem centre_near {fl : K → K} (h : Rounding fl) {m : Int} (h0 : 1 ≤ m) (h1 : m ≤ 2 ^ 31 - 1) :
    |stToUV fl (fl ((m : K) / 2 ^ 31)) - stToUV _root_.id ((m : K) / 2 ^ 31)| ≤ 1 / 2 ^ 45 ∧
      |stToUV fl (fl ((m : K) / 2 ^ 31))| ≤ 1 - 1 / 2 ^ 40 := by
  have m0 : (1 : K) ≤ m := by exact_mod_cast h0
  have m1 : (m : K) ≤ 2 ^ 31 - 1 := by exact_mod_cast h1
  have s0 : 1 / 2 ^ 31 ≤ (m : K) / 2 ^ 31 := by gcongr
  have s1 : (m : K) / 2 ^ 31 ≤ 1 - 1 / 2 ^ 31 := by
    rw [div_le_iff₀ (by positivity)]; norm_num at *; linarith
  generalize (m : K) / 2 ^ 31 = s at *
  have p31 : (0 : K) < 1 / 2 ^ 31 := by positivity
  have a1 : |fl s - s| ≤ 2 / 2 ^ 53 := (near_self h (B := 1) (by rw [abs_of_nonneg] <;> linarith) (by norm_num)).trans (by norm_num)
  have a1' := abs_le.1 a1
  have b0 : -1 / 4 ≤ fl s := by have : (2 : K) / 2 ^ 53 ≤ 1 / 4 := by norm_num
                                linarith
  have b1 : fl s ≤ 5 / 4 := by have : (2 : K) / 2 ^ 53 ≤ 1 / 4 := by norm_num
                               linarith
  have a2 := stToUV_near h b0 b1
  have a3 := (stToUV_lip_abs (a := s) (b := fl s) (by linarith) (by linarith) b0 b1).2
  have a4 := abs_add_le (stToUV fl (fl s) - stToUV _root_.id (fl s)) (stToUV _root_.id (fl s) - stToUV _root_.id s)
  rw [sub_add_sub_cancel] at a4
  have a5 : |stToUV fl (fl s) - stToUV _root_.id s| ≤ 1 / 2 ^ 45 := by
    norm_num at *
    linarith
  refine ⟨a5, ?_⟩
  have l1 := (stToUV_lip (a := s) (b := 1) (by linarith) (by linarith) (by norm_num)).1
  have l2 := (stToUV_lip (a := 0) (b := s) (by norm_num) (by linarith) (by linarith)).1
  obtain ⟨e0, _, e1⟩ := c59_stToUV_ends (K := K)
  rw [e1] at l1
  rw [e0] at l2
  rw [abs_le] at a5 ⊢
  norm_num at *
  constructor <;> linarith

/-- The index computed from the coordinates of a cell's centre, after a further perturbation. -/
theorem back_near [FloorRing K] {fl sqrt : K → K} (h : Rounding fl) (hs : IsSqrt sqrt) {i0 S : Int} (hS : 0 < S) (h0 : 0 ≤ i0)
    (h1 : i0 + S ≤ 2 ^ 30) {u : K} (hu : |u - stToUV fl (fl (((2 * i0 + S : Int) : K) / 2 ^ 31))| ≤ 1 / 2 ^ 48) :
    i0 ≤ stToIJ fl (uvToST fl sqrt u) ∧ stToIJ fl (uvToST fl sqrt u) < i0 + S := by
  obtain ⟨c1, c2⟩ := centre_near h (m := 2 * i0 + S) (by omega) (by omega)
  refine stToIJ_near h hS h0 h1 ?_
  generalize ((2 * i0 + S : Int) : K) / 2 ^ 31 = s at *
  have a1 := abs_add_le (u - stToUV fl (fl s)) (stToUV fl (fl s) - stToUV _root_.id s)
  rw [sub_add_sub_cancel] at a1
  have d1 := abs_of_near hu c2
  have b1 : -5 / 4 ≤ u ∧ u ≤ 5 / 4 := by
    rw [abs_le] at d1
    norm_num at d1
    constructor <;> linarith
  have a2 := uvToST_near h hs b1.1 b1.2
  have g1 : |stToUV _root_.id s| ≤ 5 / 4 := by
    have c1' : |stToUV _root_.id s - stToUV fl (fl s)| ≤ 1 / 2 ^ 45 := by rw [abs_sub_comm]; exact c1
    refine (abs_of_near c1' c2).trans ?_
    norm_num
  rw [abs_le] at g1
  have a3 := uvToST_lip hs b1.1 b1.2 (v := stToUV _root_.id s) (by linarith) (by linarith)
  rw [c59_uvToST_stToUV hs] at a3
  have a4 := abs_add_le (uvToST fl sqrt u - uvToST _root_.id sqrt u) (uvToST _root_.id sqrt u - s)
  rw [sub_add_sub_cancel] at a4
  norm_num at *
  linarith

/-- **C61.** The centre of every valid cell, converted to a point and back to a leaf with rounding, gives a leaf of that cell; for a
leaf it gives the leaf itself. -/
theorem c61_roundtrip [FloorRing K] {fl sqrt : K → K} (h : Rounding fl) (hs : IsSqrt sqrt) {c : CellID} (hc : Valid c) :
    ∃ p l, c.toPoint fl sqrt = some p ∧ fromPoint fl sqrt p = some l ∧ Valid l ∧ l.level = some 30 ∧ c.contains l = some true ∧
      (c.level = some 30 → l = c) := by
  have hsq := hc.square
  obtain ⟨p, hp, _, hr⟩ := c22_real fl hc hsq
  have b1 := hsq.pos; have b2 := hsq.i_lo; have b3 := hsq.i_hi; have b4 := hsq.j_lo; have b5 := hsq.j_hi; have b6 := hsq.face
  generalize ((sr c).1 * ss c : Nat) = i0 at *
  generalize ((sr c).2.1 * ss c : Nat) = j0 at *
  generalize (ss c : Nat) = S at *
  generalize sf c = f at *
  unfold side at b3 b5
  obtain ⟨u1, u2⟩ := centre_near h (m := 2 * (i0 : Int) + S) (by omega) (by omega)
  obtain ⟨v1, v2⟩ := centre_near h (m := 2 * (j0 : Int) + S) (by omega) (by omega)
  obtain ⟨w, hw⟩ : ∃ w, faceUVtoXYZ f p.x p.y = some w := by
    interval_cases f <;> exact ⟨_, rfl⟩
  rw [hp] at hw
  obtain ⟨n1, n2, u', v', e1, e2, e3⟩ := project_near h hs b6 u2 v2 hw
  have k1 := back_near h hs b1 b2 b3 e2
  have k2 := back_near h hs b1 b4 b5 e3
  obtain ⟨l, u'', v'', g1, g2, g3, g4, g5, g6⟩ := c61_total fl sqrt n1
  rw [n2] at g4 g5 g6
  rw [e1] at g5
  simp only [Option.some.injEq, Prod.mk.injEq, true_and] at g5
  obtain ⟨rfl, rfl⟩ := g5
  have hin : c.contains l = some true := (hsq.leaves l _ _ _ g2 g3 g6).2 ⟨rfl, k1.1, k1.2, k2.1, k2.2⟩
  refine ⟨_, l, ?_, g1, g2, g3, hin, ?_⟩
  · unfold toPoint
    rw [hr, hp, hw]
    rfl
  · intro h30
    obtain ⟨r, r1, _, r2⟩ := c03_contains hc g2
    rw [hin] at r1
    obtain rfl := Option.some.inj r1
    obtain ⟨ka, kb, q1, q2, q3, q4⟩ := r2.1 rfl
    rw [h30] at q1
    obtain rfl := Option.some.inj q1
    rw [(c05_parent_parent g2 g3 (le_refl 30) (le_refl 30) q4).2] at q4
    exact Option.some.inj q4

/-- The index of a coordinate computed with rounding. -/
theorem stToIJ_tol [FloorRing K] {fl : K → K} (h : Rounding fl) {s t : K} (h0 : 0 ≤ t) (h1 : t ≤ 1) (hs : |s - t| ≤ 1 / 2 ^ 47) :
    ((stToIJ fl s : Int) : K) / 2 ^ 30 - 1 / 2 ^ 46 ≤ t ∧ t ≤ ((stToIJ fl s + 1 : Int) : K) / 2 ^ 30 + 1 / 2 ^ 46 := by
  have a1 : |2 ^ 30 * s - 2 ^ 30 * t| ≤ 1 / 2 ^ 17 := by
    rw [← mul_sub, abs_mul, abs_of_pos (by positivity : (0 : K) < 2 ^ 30)]
    calc (2 : K) ^ 30 * |s - t| ≤ 2 ^ 30 * (1 / 2 ^ 47) := by gcongr
      _ = 1 / 2 ^ 17 := by norm_num
  have a2 := near_fl h a1 (B := 2 ^ 31) ((abs_of_near a1 (P := 2 ^ 30) (by rw [abs_of_nonneg] <;> linarith)).trans (by norm_num)) (by norm_num)
  have a3 : |fl (2 ^ 30 * s) - 2 ^ 30 * t| ≤ 1 / 2 ^ 16 := a2.trans (by norm_num)
  rw [abs_le] at a3
  unfold stToIJ clamp f64ToI32 maxSize
  generalize fl (2 ^ 30 * s) = y at *
  have l1 := Int.floor_le y
  have l2 := Int.lt_floor_add_one y
  have f0 : -1 ≤ ⌊y⌋ := by rw [Int.le_floor]; norm_num at *; linarith
  have f1 : ⌊y⌋ ≤ 2 ^ 30 := by
    have : ⌊y⌋ < 2 ^ 30 + 1 := by rw [Int.floor_lt]; push_cast; norm_num at *; linarith
    omega
  generalize ⌊y⌋ = x at *
  have e1 : max (-2 ^ 31) (min (2 ^ 31 - 1) x) = x := by omega
  rw [e1]
  have fin : ∀ n : Int, (n : K) ≤ 2 ^ 30 * t + 1 / 2 ^ 16 → 2 ^ 30 * t ≤ n + 1 + 1 / 2 ^ 16 →
      ((n : Int) : K) / 2 ^ 30 - 1 / 2 ^ 46 ≤ t ∧ t ≤ ((n + 1 : Int) : K) / 2 ^ 30 + 1 / 2 ^ 46 := by
    intro n h1 h2
    push_cast
    constructor
    · rw [sub_le_iff_le_add, div_le_iff₀ (by positivity)]; norm_num at *; linarith
    · rw [← sub_le_iff_le_add, le_div_iff₀ (by positivity)]; norm_num at *; linarith
  split_ifs with c1 c2
  · obtain rfl : x = -1 := by omega
    refine fin 0 ?_ ?_
    · push_cast; norm_num at *; linarith
    · push_cast at *; norm_num at *; linarith
  · obtain rfl : x = 2 ^ 30 := by omega
    refine fin _ ?_ ?_ <;> push_cast at * <;> norm_num at * <;> linarith
  · refine fin x ?_ ?_ <;> linarith

/-- **C61.** The leaf computed with rounding contains the exact projection of the point, up to `2^-45` in `(u, v)`. -/
theorem c61_tolerance [FloorRing K] {fl sqrt : K → K} (h : Rounding fl) (hs : IsSqrt sqrt) {p : Vec K} (hp : ¬ IsZero p) :
    ∃ l u v r, fromPoint fl sqrt p = some l ∧ xyzToFaceUV _root_.id p = some (l.face, u, v) ∧ l.boundUV _root_.id = some r ∧
      r.x.lo - 1 / 2 ^ 44 ≤ u ∧ u ≤ r.x.hi + 1 / 2 ^ 44 ∧ r.y.lo - 1 / 2 ^ 44 ≤ v ∧ v ≤ r.y.hi + 1 / 2 ^ 44 := by
  obtain ⟨l, u', v', h1, h2, h3, h4, h5, h6⟩ := c61_total fl sqrt hp
  obtain ⟨f', u, v, g1, g2, g3, g4, g5, g6⟩ := c60_range (fl := (_root_.id : K → K)) monotone_id rfl rfl hp
  obtain ⟨-, _, _, e⟩ := xyzToFaceUV_total (_root_.id : K → K) hp
  rw [g1] at e
  simp only [Option.some.injEq, Prod.mk.injEq] at e
  obtain ⟨rfl, rfl, rfl⟩ := e
  have hsq := leaf_square h2 h3 h6
  have h6' := h6
  obtain ⟨o, ho⟩ := h6'
  obtain ⟨_, hb⟩ := c68_from (_root_.id : K → K) h2 h3 hsq ho
  -- the computed coordinates are the rounded exact ones
  have huv : u' = fl u ∧ v' = fl v := by
    have hf := (xyzToFaceUV_total fl hp).1
    unfold xyzToFaceUV at g1 h5
    generalize vecFace p = f at *
    interval_cases f <;> simp [validFaceXYZtoUV] at g1 h5 <;> rw [← g1.1, ← g1.2, ← h5.1, ← h5.2] <;> exact ⟨rfl, rfl⟩
  obtain ⟨rfl, rfl⟩ := huv
  refine ⟨l, u, v, _, h1, by rw [h4]; exact g1, hb, ?_⟩
  have key : ∀ x : K, -1 ≤ x → x ≤ 1 → uvLine _root_.id (stToIJ fl (uvToST fl sqrt (fl x))) - 1 / 2 ^ 44 ≤ x ∧
      x ≤ uvLine _root_.id (stToIJ fl (uvToST fl sqrt (fl x)) + 1) + 1 / 2 ^ 44 := by
    intro x hx0 hx1
    have a1 : |fl x - x| ≤ 2 / 2 ^ 53 := (near_self h (B := 1) (abs_le.2 ⟨hx0, hx1⟩) (by norm_num)).trans (by norm_num)
    have a1' := abs_le.1 a1
    have b : -5 / 4 ≤ fl x ∧ fl x ≤ 5 / 4 := by norm_num at a1'; constructor <;> linarith
    have a2 := uvToST_near h hs b.1 b.2
    have a3 := uvToST_lip hs b.1 b.2 (v := x) (by linarith) (by linarith)
    have a4 := abs_add_le (uvToST fl sqrt (fl x) - uvToST _root_.id sqrt (fl x)) (uvToST _root_.id sqrt (fl x) - uvToST _root_.id sqrt x)
    rw [sub_add_sub_cancel] at a4
    have a5 : |uvToST fl sqrt (fl x) - uvToST _root_.id sqrt x| ≤ 1 / 2 ^ 47 := by norm_num at *; linarith
    have hr := uvToST_range hs hx0 hx1
    obtain ⟨t1, t2⟩ := stToIJ_tol h hr.1 hr.2 a5
    have rg := stToIJ_range fl (uvToST fl sqrt (fl x))
    have e := c59_stToUV_uvToST hs x
    have hm := (c59_stToUV_strictMono (K := K)).monotone
    generalize stToIJ fl (uvToST fl sqrt (fl x)) = i at *
    generalize uvToST _root_.id sqrt x = s at *
    have i0 : (0 : K) ≤ i := by exact_mod_cast rg.1
    have i1 : ((i + 1 : Int) : K) ≤ 2 ^ 30 := by exact_mod_cast (by omega : i + 1 ≤ 2 ^ 30)
    have j0 : (0 : K) ≤ i / 2 ^ 30 := by positivity
    have j1 : ((i + 1 : Int) : K) / 2 ^ 30 ≤ 1 := by rw [div_le_one (by positivity)]; exact i1
    have j2 : (i : K) / 2 ^ 30 ≤ 1 := by rw [div_le_one (by positivity)]; push_cast at i1; linarith
    have j3 : (0 : K) ≤ ((i + 1 : Int) : K) / 2 ^ 30 := by push_cast; positivity
    unfold uvLine
    simp only [_root_.id]
    generalize (i : K) / 2 ^ 30 = a at *
    generalize ((i + 1 : Int) : K) / 2 ^ 30 = c at *
    rw [← e]
    constructor
    · rcases le_total a s with q | q
      · have := hm q
        have : (0 : K) ≤ 1 / 2 ^ 44 := by positivity
        linarith
      · have := (stToUV_lip (a := s) (b := a) (by linarith) q (by linarith)).2
        norm_num at *
        linarith
    · rcases le_total s c with q | q
      · have := hm q
        have : (0 : K) ≤ 1 / 2 ^ 44 := by positivity
        linarith
      · have := (stToUV_lip (a := c) (b := s) (by linarith) q (by linarith)).2
        norm_num at *
        linarith
  exact ⟨(key u g3 g4).1, (key u g3 g4).2, (key v g5 g6).1, (key v g5 g6).2⟩

/-! ## Examples -/

-- for rounding to nearest
example : ∃ p l, (CellID.mk 0x6060730000000000#64).toPoint roundF64 Real.sqrt = some p ∧ fromPoint roundF64 Real.sqrt p = some l ∧
    Valid l ∧ l.level = some 30 ∧ (CellID.mk 0x6060730000000000#64).contains l = some true := by
  obtain ⟨p, l, h1, h2, h3, h4, h5, _⟩ := c61_roundtrip (rounding_f64 (K := ℝ)) isSqrt_real exCell.1
  exact ⟨p, l, h1, h2, h3, h4, h5⟩

example : ¬ IsZero (⟨1, 2, -3⟩ : Vec ℝ) := by unfold IsZero; norm_num

end Verif
