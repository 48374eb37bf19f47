import Verif.Model.Angle
import Verif.Proofs.RNE
import Verif.Proofs.Near

/-!
# Angles: C65 and C76

`Angle::normalized`, and the conversions between `E5`, `E6`, `E7` and `Angle` or `Deg`.
-/

namespace Verif
open Spec

namespace Spec
variable {K : Type} [Field K] [LinearOrder K]

/-- The remainder of `%` on `f64`, which is exact: it has the sign of the first operand and is smaller than the second. -/
def IsFmod (fmod : K → K → K) : Prop := ∀ x y, 0 < y →
  (∃ n : ℤ, fmod x y = x - n * y) ∧ |fmod x y| < y ∧ (0 ≤ x → 0 ≤ fmod x y) ∧ (x ≤ 0 → fmod x y ≤ 0)

/-- The constant `PI` of Rust. -/
def piF64 : K := 884279719003555 / 2 ^ 48

end Spec

variable {K : Type} [Field K] [LinearOrder K] [IsStrictOrderedRing K]

/-- The hypothesis on `%` can be met. -/
theorem isFmod_exists [FloorRing K] :
    IsFmod (fun x y : K => if 0 ≤ x then x - ⌊x / y⌋ * y else x + ⌊-x / y⌋ * y) := by
  intro x y hy
  dsimp only
  split_ifs with h
  · have h1 := Int.floor_le (x / y)
    have h2 := Int.lt_floor_add_one (x / y)
    rw [le_div_iff₀ hy] at h1
    rw [div_lt_iff₀ hy] at h2
    refine ⟨⟨_, rfl⟩, by rw [abs_lt]; constructor <;> nlinarith, fun _ => by linarith, fun h3 => ?_⟩
    have : x = 0 := le_antisymm h3 h
    rw [this]; simp
  · have h1 := Int.floor_le (-x / y)
    have h2 := Int.lt_floor_add_one (-x / y)
    rw [le_div_iff₀ hy] at h1
    rw [div_lt_iff₀ hy] at h2
    refine ⟨⟨-⌊-x / y⌋, by push_cast; ring⟩, by rw [abs_lt]; constructor <;> nlinarith, fun h3 => absurd h3 h, fun _ => by linarith⟩

/-- A remainder is determined when the operand is small. -/
theorem fmod_small {fmod : K → K → K} (h : IsFmod fmod) {x y : K} (hy : 0 < y) (hx : |x| < y) : fmod x y = x := by
  obtain ⟨⟨n, hn⟩, h2, h3, h4⟩ := h x y hy
  rw [abs_lt] at hx h2
  suffices n = 0 by rw [hn, this, Int.cast_zero, zero_mul, sub_zero]
  rcases le_total 0 x with h0 | h0
  · have := h3 h0
    rw [hn] at this h2
    have a1 : (n : K) < 1 := by by_contra hc; rw [not_lt] at hc; nlinarith
    have a2 : (-1 : K) < n := by by_contra hc; rw [not_lt] at hc; nlinarith
    have a1 : n < 1 := by exact_mod_cast a1
    have a2 : -1 < n := by exact_mod_cast a2
    omega
  · have := h4 h0
    rw [hn] at this h2
    have a1 : (n : K) < 1 := by by_contra hc; rw [not_lt] at hc; nlinarith
    have a2 : (-1 : K) < n := by by_contra hc; rw [not_lt] at hc; nlinarith
    have a1 : n < 1 := by exact_mod_cast a1
    have a2 : -1 < n := by exact_mod_cast a2
    omega

/-- **C65.** In exact arithmetic `normalized` gives the equivalent angle in `[0, 2π)`. -/
theorem c65_exact {fmod : K → K → K} (h : IsFmod fmod) {pi : K} (hpi : 0 < pi) (a : K) :
    0 ≤ Angle.normalized _root_.id pi fmod a ∧ Angle.normalized _root_.id pi fmod a < 2 * pi ∧
    ∃ n : ℤ, Angle.normalized _root_.id pi fmod a = a - n * (2 * pi) := by
  obtain ⟨⟨n, hn⟩, h2, h3, h4⟩ := h a (2 * pi) (by linarith)
  unfold Angle.normalized
  simp only [_root_.id]
  rw [abs_lt] at h2
  split_ifs with hc
  · exact ⟨by linarith, by linarith, n - 1, by rw [hn]; push_cast; ring⟩
  · exact ⟨by linarith, h2.2, n, hn⟩

/-- **C65.** With rounding, the result is in the closed interval `[0, 2π]` (`2π` rounded). -/
theorem c65_range {fl : K → K} {fmod : K → K → K} (h : IsFmod fmod) (hm : Monotone fl) (h0 : fl 0 = 0) {pi : K} (hp : 0 < fl (2 * pi))
    (hf : fl (fl (2 * pi)) = fl (2 * pi)) (a : K) :
    0 ≤ Angle.normalized fl pi fmod a ∧ Angle.normalized fl pi fmod a ≤ fl (2 * pi) := by
  obtain ⟨⟨n, hn⟩, h2, h3, h4⟩ := h a (fl (2 * pi)) hp
  unfold Angle.normalized
  dsimp only
  rw [abs_lt] at h2
  split_ifs with hc
  · constructor
    · have := hm (show 0 ≤ fmod a (fl (2 * pi)) + fl (2 * pi) by linarith)
      rwa [h0] at this
    · have := hm (show fmod a (fl (2 * pi)) + fl (2 * pi) ≤ fl (2 * pi) by linarith)
      rwa [hf] at this
  · exact ⟨by linarith, h2.2.le⟩

/-- **C65.** A non-negative angle is reduced without any rounding error, into the half-open interval. -/
theorem c65_nonneg {fl : K → K} {fmod : K → K → K} (h : IsFmod fmod) {pi : K} (hp : 0 < fl (2 * pi)) {a : K} (ha : 0 ≤ a) :
    0 ≤ Angle.normalized fl pi fmod a ∧ Angle.normalized fl pi fmod a < fl (2 * pi) ∧
    ∃ n : ℤ, Angle.normalized fl pi fmod a = a - n * fl (2 * pi) := by
  obtain ⟨⟨n, hn⟩, h2, h3, h4⟩ := h a (fl (2 * pi)) hp
  have h5 := h3 ha
  unfold Angle.normalized
  dsimp only
  rw [if_neg (by linarith)]
  exact ⟨h5, (abs_lt.1 h2).2, n, hn⟩

/-- **C65.** A negative angle is reduced with the error of one addition. -/
theorem c65_near {fl : K → K} {fmod : K → K → K} (hr : Rounding fl) (h : IsFmod fmod) {pi : K} (hp : 0 < fl (2 * pi)) (hp8 : fl (2 * pi) ≤ 8) (a : K) :
    ∃ n : ℤ, |Angle.normalized fl pi fmod a - (a - n * fl (2 * pi))| ≤ 9 / 2 ^ 53 := by
  obtain ⟨⟨n, hn⟩, h2, h3, h4⟩ := h a (fl (2 * pi)) hp
  unfold Angle.normalized
  dsimp only
  rw [abs_lt] at h2
  split_ifs with hc
  · refine ⟨n - 1, ?_⟩
    have e : a - ((n - 1 : ℤ) : K) * fl (2 * pi) = fmod a (fl (2 * pi)) + fl (2 * pi) := by rw [hn]; push_cast; ring
    rw [e]
    have := near_self hr (x := fmod a (fl (2 * pi)) + fl (2 * pi)) (B := 8) (by rw [abs_le]; constructor <;> linarith) (by norm_num)
    norm_num at this ⊢
    exact this
  · refine ⟨n, ?_⟩
    rw [hn, sub_self, abs_zero]
    positivity

/-- **C65.** An angle in range is not changed. -/
theorem c65_fixed {fl : K → K} {fmod : K → K → K} (h : IsFmod fmod) {pi : K} (hp : 0 < fl (2 * pi)) {a : K} (ha : 0 ≤ a) (hb : a < fl (2 * pi)) :
    Angle.normalized fl pi fmod a = a := by
  unfold Angle.normalized
  dsimp only
  rw [fmod_small h hp (by rwa [abs_of_nonneg ha]), if_neg (by linarith)]

theorem twoPi_f64 [FloorRing K] : rne (2 * piF64 : K) = 2 * piF64 := by
  refine rne_exact (m := 884279719003555) (k := -47) ?_ (by norm_num) (by norm_num)
  unfold piF64; norm_num

/-- **C65** (defect). With the rounding of IEEE 754, the result can be `2π`, outside the documented half-open interval: it is so for the
angle `-2^-60`. -/
theorem c65_seam [FloorRing K] {fmod : K → K → K} (h : IsFmod fmod) :
    Angle.normalized rne piF64 fmod (-(1 / 2 ^ 60) : K) = rne (2 * piF64) := by
  have hp : (0 : K) < 2 * piF64 := by unfold piF64; norm_num
  unfold Angle.normalized
  dsimp only
  rw [twoPi_f64, fmod_small h hp (by unfold piF64; rw [abs_neg]; norm_num), if_pos (by norm_num)]
  have hx : |-(1 / 2 ^ 60) + 2 * piF64| = -(1 / 2 ^ 60) + 2 * (piF64 : K) := abs_of_pos (by unfold piF64; norm_num)
  rw [rne_binade (e := -50) (by norm_num) (by rw [hx]; unfold piF64; norm_num) (by rw [hx]; unfold piF64; norm_num)]
  have : roundEven ((-(1 / 2 ^ 60) + 2 * piF64) / 2 ^ (-50 : ℤ) : K) = 7074237752028440 := by
    refine roundEven_eq ?_
    rw [abs_lt]; unfold piF64; constructor <;> norm_num
  rw [this]
  unfold piF64
  norm_num

example : Angle.normalized rne piF64 (fun x y : ℚ => if 0 ≤ x then x - ⌊x / y⌋ * y else x + ⌊-x / y⌋ * y) 1 = 1 :=
  c65_fixed isFmod_exists (by rw [twoPi_f64]; unfold piF64; norm_num) (by norm_num) (by rw [twoPi_f64]; unfold piF64; norm_num)

example (a : ℚ) := c65_range (fl := rne) (pi := piF64) isFmod_exists rne_mono rne_zero (by rw [twoPi_f64]; unfold piF64; norm_num) (rne_rne _) a

/-! ## `E5`, `E6`, `E7` -/

theorem roundAway_eq [FloorRing K] {y : K} {n : ℤ} (h : |y - n| < 1 / 2) : Angle.roundAway y = n := by
  rw [abs_lt] at h
  unfold Angle.roundAway
  split_ifs with hy
  · rw [Int.floor_eq_iff]
    constructor <;> linarith
  · have : ⌊-y + 1 / 2⌋ = -n := by
      rw [Int.floor_eq_iff]
      push_cast
      constructor <;> linarith
    rw [this, neg_neg]

theorem e_roundtrip [FloorRing K] {fl : K → K} (h : Rounding fl) {mul : K} (h1 : 1 / 2 ^ 40 ≤ mul) (h2 : mul ≤ 1) {n : ℤ} (hn1 : -2 ^ 31 ≤ n) (hn2 : n < 2 ^ 31) :
    Angle.toE fl mul (Angle.fromE fl mul n) = n := by
  have hm : 0 < mul := lt_of_lt_of_le (by positivity) h1
  have hn : |(n : K)| ≤ 2 ^ 31 := by
    rw [abs_le]
    have a : ((-2 ^ 31 : ℤ) : K) ≤ n := by exact_mod_cast hn1
    have b : (n : K) ≤ ((2 ^ 31 : ℤ) : K) := by exact_mod_cast hn2.le
    push_cast at a b
    norm_num
    exact ⟨by linarith, by linarith⟩
  have hx : |(n : K) * mul| ≤ 2 ^ 31 := by
    rw [abs_mul, abs_of_pos hm]
    nlinarith [abs_nonneg (n : K)]
  have hr := h ((n : K) * mul) (hx.trans (pow_le_pow_right₀ (by norm_num) (by norm_num)))
  have ht : (1 : K) / 2 ^ 1075 ≤ 1 / 2 ^ 100 := one_div_le_one_div_of_le (by positivity) (pow_le_pow_right₀ (by norm_num) (by norm_num))
  unfold Angle.toE Angle.fromE
  generalize fl ((n : K) * mul) = x at *
  have hd : |x / mul - n| ≤ 1 / 2 ^ 20 := by
    have e : x / mul - n = (x - n * mul) / mul := by field_simp
    rw [e, abs_div, abs_of_pos hm, div_le_iff₀ hm]
    rw [abs_mul, abs_of_pos hm] at hr
    have : |(n : K)| * mul ≤ 2 ^ 31 * mul := mul_le_mul_of_nonneg_right hn hm.le
    generalize |(n : K)| * mul = w at *
    generalize (1 : K) / 2 ^ 1075 = t at *
    norm_num at *
    linarith
  have hq := abs_of_near hd hn
  have hf := near_fl h hd (B := 2 ^ 32) (hq.trans (by norm_num)) (by norm_num)
  have : Angle.roundAway (fl (x / mul)) = n := roundAway_eq (lt_of_le_of_lt hf (by norm_num))
  rw [this]
  unfold f64ToI32
  rw [min_eq_right (by omega), max_eq_right (by omega)]

theorem rne_scale_bounds {fl : K → K} (h : Rounding fl) {x lo hi : K} (hlo : 1 / 2 ^ 60 ≤ lo) (h1 : lo ≤ x) (h2 : x ≤ hi) (hhi : hi ≤ 2 ^ 20) :
    lo - hi / 2 ^ 52 ≤ fl x ∧ fl x ≤ hi + hi / 2 ^ 52 := by
  have h0 : 0 ≤ x := le_trans (by positivity) (hlo.trans h1)
  have hr := h x (by rw [abs_of_nonneg h0]; exact h2.trans (hhi.trans (pow_le_pow_right₀ (by norm_num) (by norm_num))))
  have ht : (1 : K) / 2 ^ 1075 ≤ 1 / 2 ^ 60 / 2 ^ 53 := by
    rw [div_div, ← pow_add]
    exact one_div_le_one_div_of_le (by positivity) (pow_le_pow_right₀ (by norm_num) (by norm_num))
  rw [abs_of_nonneg h0, abs_le] at hr
  generalize (1 : K) / 2 ^ 1075 = t at *
  norm_num at *
  constructor <;> linarith

/-- **C76.** An `E5`, `E6` or `E7` value survives the conversion to an `Angle` and back, for every `i32`. -/
theorem c76_angle [FloorRing K] {fl : K → K} (h : Rounding fl) {pi : K} (hp1 : 3 ≤ pi) (hp2 : pi ≤ 4) {t : K} (ht : t = 10 ^ 5 ∨ t = 10 ^ 6 ∨ t = 10 ^ 7)
    {n : ℤ} (hn1 : -2 ^ 31 ≤ n) (hn2 : n < 2 ^ 31) :
    Angle.toE fl (Angle.eMul fl pi t) (Angle.fromE fl (Angle.eMul fl pi t) n) = n := by
  have ht1 : (10 : K) ^ 5 ≤ t ∧ t ≤ 10 ^ 7 := by rcases ht with rfl | rfl | rfl <;> norm_num
  have ht0 : 0 < t := lt_of_lt_of_le (by norm_num) ht1.1
  obtain ⟨a1, a2⟩ := rne_scale_bounds h (x := pi / 180) (lo := 3 / 180) (hi := 4 / 180) (by norm_num) (by linarith) (by linarith) (by norm_num)
  have b : Angle.eMul fl pi t = fl (fl (pi / 180) / t) := rfl
  obtain ⟨c1, c2⟩ := rne_scale_bounds h (x := fl (pi / 180) / t) (lo := 2 / 180 / 10 ^ 7) (hi := 5 / 180 / 10 ^ 5) (by norm_num)
    (div_le_div₀ (le_trans (by norm_num) a1) (le_trans (by norm_num) a1) ht0 ht1.2)
    (div_le_div₀ (by norm_num) (a2.trans (by norm_num)) (by norm_num) ht1.1) (by norm_num)
  rw [← b] at c1 c2
  exact e_roundtrip h (le_trans (by norm_num) c1) (c2.trans (by norm_num)) hn1 hn2

/-- **C76.** The same for the conversion to degrees and back. -/
theorem c76_deg [FloorRing K] {fl : K → K} (h : Rounding fl) {t : K} (ht : t = 10 ^ 5 ∨ t = 10 ^ 6 ∨ t = 10 ^ 7)
    {n : ℤ} (hn1 : -2 ^ 31 ≤ n) (hn2 : n < 2 ^ 31) :
    Angle.toE fl (Angle.eDegMul fl t) (Angle.fromE fl (Angle.eDegMul fl t) n) = n := by
  have ht1 : (10 : K) ^ 5 ≤ t ∧ t ≤ 10 ^ 7 := by rcases ht with rfl | rfl | rfl <;> norm_num
  have ht0 : 0 < t := lt_of_lt_of_le (by norm_num) ht1.1
  obtain ⟨c1, c2⟩ := rne_scale_bounds h (x := 1 / t) (lo := 1 / 10 ^ 7) (hi := 1 / 10 ^ 5) (by norm_num)
    (one_div_le_one_div_of_le ht0 ht1.2) (one_div_le_one_div_of_le (by norm_num) ht1.1) (by norm_num)
  exact e_roundtrip h (le_trans (by norm_num) c1) (c2.trans (by norm_num)) hn1 hn2

/-- **C76.** The result of a conversion to `E5`, `E6`, `E7` is an `i32`, and is the nearest one as far as the angle is in range. -/
theorem c76_range [FloorRing K] (fl : K → K) (mul a : K) : -2 ^ 31 ≤ Angle.toE fl mul a ∧ Angle.toE fl mul a < 2 ^ 31 := by
  unfold Angle.toE f64ToI32
  omega

/-- **C76.** The conversion back never loses more than half a unit, up to rounding: for an angle within the `i32` range the result times
the unit is within 0.501 units of the angle. -/
theorem c76_nearest [FloorRing K] {fl : K → K} (h : Rounding fl) {mul : K} (h1 : 0 < mul) {a : K} (ha : |a / mul| ≤ 2 ^ 31 - 1) :
    |(Angle.toE fl mul a : K) * mul - a| ≤ 501 / 1000 * mul := by
  have hf := near_self h (x := a / mul) (B := 2 ^ 31) (ha.trans (by norm_num)) (by norm_num)
  have hd : |(Angle.roundAway (fl (a / mul)) : K) - fl (a / mul)| ≤ 1 / 2 := by
    unfold Angle.roundAway
    split_ifs
    · have h1 := Int.floor_le (fl (a / mul) + 1 / 2)
      have h2 := Int.lt_floor_add_one (fl (a / mul) + 1 / 2)
      rw [abs_le]; constructor <;> linarith
    · have h1 := Int.floor_le (-fl (a / mul) + 1 / 2)
      have h2 := Int.lt_floor_add_one (-fl (a / mul) + 1 / 2)
      push_cast
      rw [abs_le]; constructor <;> linarith
  have hr : (Angle.toE fl mul a : K) = Angle.roundAway (fl (a / mul)) := by
    unfold Angle.toE f64ToI32
    generalize Angle.roundAway (fl (a / mul)) = r at *
    rw [abs_le] at ha hf hd
    have b1 : (r : K) < ((2 ^ 31 : ℤ) : K) := by push_cast; norm_num at *; linarith
    have b2 : ((-2 ^ 31 : ℤ) : K) < (r : K) := by push_cast; norm_num at *; linarith
    have b1 : r < 2 ^ 31 := by exact_mod_cast b1
    have b2 : -2 ^ 31 < r := by exact_mod_cast b2
    rw [min_eq_right (by omega), max_eq_right (by omega)]
  rw [hr]
  have e : (Angle.roundAway (fl (a / mul)) : K) * mul - a = (Angle.roundAway (fl (a / mul)) - a / mul) * mul := by field_simp
  rw [e, abs_mul, abs_of_pos h1]
  refine mul_le_mul_of_nonneg_right ?_ h1.le
  have := abs_add_le ((Angle.roundAway (fl (a / mul)) : K) - fl (a / mul)) (fl (a / mul) - a / mul)
  rw [sub_add_sub_cancel] at this
  norm_num at *
  linarith

example : Angle.toE (rne : ℚ → ℚ) (Angle.eMul rne piF64 (10 ^ 7)) (Angle.fromE rne (Angle.eMul rne piF64 (10 ^ 7)) (-1234567891)) = -1234567891 :=
  c76_angle rounding_rne (by unfold piF64; norm_num) (by unfold piF64; norm_num) (by simp) (by norm_num) (by norm_num)

end Verif
